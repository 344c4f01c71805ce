import Mathlib.Analysis.SpecialFunctions.Integrals.Basic
import Mathlib.Analysis.SpecialFunctions.Trigonometric.Bounds
import Mathlib.Analysis.SpecialFunctions.Trigonometric.Chebyshev.Basic
import Mathlib.RingTheory.Polynomial.Chebyshev
import Mathlib.Analysis.Calculus.MeanValue
import Mathlib.Analysis.Calculus.ContDiff.Deriv
import Mathlib.Analysis.Calculus.Deriv.Polynomial
import Mathlib.MeasureTheory.Integral.IntervalIntegral.Periodic
import Mathlib.Data.Nat.Factorial.Basic
import Mathlib.Tactic

/-!
Jackson's theorem with the kernel of Fejér and Korovkin: an `L`-Lipschitz function on [-1, 1] is approximated by polynomials of degree `m` to within
`π² L / (2 (m + 2))`, and a function with bounded derivative of order `k` at the rate `m^(-k)`.
-/

namespace GaussQuad.Jackson
open Polynomial MeasureTheory Set

/-- the coefficients: samples of a half wave -/
noncomputable def a (m : ℕ) (j : ℤ) : ℝ := Real.sin ((j + 1) * (Real.pi / (m + 2)))

theorem a_recurrence (m : ℕ) (j : ℤ) : a m (j - 1) + a m (j + 1) = 2 * Real.cos (Real.pi / (m + 2)) * a m j := by
  unfold a
  push_cast
  rw [show ((j : ℝ) - 1 + 1) * (Real.pi / (m + 2)) = (j + 1) * (Real.pi / (m + 2)) - Real.pi / (m + 2) by ring,
    show ((j : ℝ) + 1 + 1) * (Real.pi / (m + 2)) = (j + 1) * (Real.pi / (m + 2)) + Real.pi / (m + 2) by ring, Real.sin_sub, Real.sin_add]
  ring

theorem a_neg_one (m : ℕ) : a m (-1) = 0 := by simp [a]

theorem a_end (m : ℕ) : a m (m + 1) = 0 := by
  unfold a
  have : ((m : ℝ) + 2) ≠ 0 := by positivity
  push_cast
  rw [show ((m : ℝ) + 1 + 1) * (Real.pi / (m + 2)) = Real.pi by field_simp; ring, Real.sin_pi]

theorem a_pos (m : ℕ) {j : ℕ} (hj : j ≤ m) : 0 < a m j := by
  unfold a
  have hm : (0 : ℝ) < m + 2 := by positivity
  apply Real.sin_pos_of_pos_of_lt_pi
  · have := Real.pi_pos; push_cast; positivity
  · have hj' : (j : ℝ) ≤ m := by exact_mod_cast hj
    push_cast
    rw [← mul_div_assoc, div_lt_iff₀ hm]
    nlinarith [Real.pi_pos]

/-- the sum of the squares -/
noncomputable def S (m : ℕ) : ℝ := ∑ j ∈ Finset.range (m + 1), a m j ^ 2

theorem S_pos (m : ℕ) : 0 < S m := Finset.sum_pos (fun j hj => pow_pos (a_pos m (by have := Finset.mem_range.1 hj; omega)) 2) ⟨0, by simp⟩

theorem neighbours (m : ℕ) : ∑ j ∈ Finset.range m, a m j * a m (j + 1) = Real.cos (Real.pi / (m + 2)) * S m := by
  have h1 : ∑ j ∈ Finset.range (m + 1), a m j * (a m (j - 1) + a m (j + 1)) = 2 * Real.cos (Real.pi / (m + 2)) * S m := by
    rw [S, Finset.mul_sum]
    exact Finset.sum_congr rfl fun j _ => by rw [a_recurrence]; ring
  have h2 : ∑ j ∈ Finset.range (m + 1), a m j * a m (j + 1) = ∑ j ∈ Finset.range m, a m j * a m (j + 1) := by
    rw [Finset.sum_range_succ, a_end, mul_zero, add_zero]
  have h3 : ∑ j ∈ Finset.range (m + 1), a m j * a m (j - 1) = ∑ j ∈ Finset.range m, a m j * a m (j + 1) := by
    rw [Finset.sum_range_succ']
    push_cast
    rw [a_neg_one, mul_zero, add_zero]
    exact Finset.sum_congr rfl fun j _ => by rw [add_sub_cancel_right, mul_comm]
  simp only [mul_add, Finset.sum_add_distrib] at h1
  rw [h2, h3] at h1
  linarith

/-- the kernel -/
noncomputable def K (m : ℕ) (t : ℝ) : ℝ := ∑ j ∈ Finset.range (m + 1), ∑ l ∈ Finset.range (m + 1), a m j * a m l * Real.cos (((j : ℤ) - l : ℤ) * t)

theorem K_eq (m : ℕ) (t : ℝ) : K m t = (∑ j ∈ Finset.range (m + 1), a m j * Real.cos (j * t)) ^ 2 + (∑ j ∈ Finset.range (m + 1), a m j * Real.sin (j * t)) ^ 2 := by
  rw [sq, sq, Finset.sum_mul_sum, Finset.sum_mul_sum, ← Finset.sum_add_distrib, K]
  refine Finset.sum_congr rfl fun j _ => ?_
  rw [← Finset.sum_add_distrib]
  refine Finset.sum_congr rfl fun l _ => ?_
  push_cast
  rw [sub_mul, Real.cos_sub]
  ring

theorem K_nonneg (m : ℕ) (t : ℝ) : 0 ≤ K m t := by rw [K_eq]; positivity

theorem K_continuous (m : ℕ) : Continuous (K m) := by unfold K; fun_prop

theorem K_periodic (m : ℕ) : Function.Periodic (K m) (2 * Real.pi) := by
  intro t
  unfold K
  refine Finset.sum_congr rfl fun j _ => Finset.sum_congr rfl fun l _ => ?_
  rw [mul_add, Real.cos_add_int_mul_two_pi]

theorem integral_cos_int (k : ℤ) : (∫ t in (-Real.pi)..Real.pi, Real.cos (k * t)) = if k = 0 then 2 * Real.pi else 0 := by
  split_ifs with h
  · subst h; simp; ring
  · rw [intervalIntegral.integral_comp_mul_left (fun x => Real.cos x) (by exact_mod_cast h), integral_cos]
    rw [mul_neg, Real.sin_neg, Real.sin_int_mul_pi]; simp

theorem integral_K (m : ℕ) : (∫ t in (-Real.pi)..Real.pi, K m t) = 2 * Real.pi * S m := by
  unfold K
  rw [intervalIntegral.integral_finsetSum fun j _ => Continuous.intervalIntegrable (by fun_prop) _ _, S, Finset.mul_sum]
  refine Finset.sum_congr rfl fun j hj => ?_
  rw [intervalIntegral.integral_finsetSum fun l _ => Continuous.intervalIntegrable (by fun_prop) _ _, Finset.sum_eq_single j]
  · rw [intervalIntegral.integral_const_mul, integral_cos_int, if_pos (by simp)]; ring
  · intro l _ hl
    rw [intervalIntegral.integral_const_mul, integral_cos_int, if_neg (by omega), mul_zero]
  · intro h; exact absurd hj h

theorem integral_cos_K (m : ℕ) : (∫ t in (-Real.pi)..Real.pi, Real.cos t * K m t) = 2 * Real.pi * (Real.cos (Real.pi / (m + 2)) * S m) := by
  have e : ∀ t, Real.cos t * K m t = ∑ j ∈ Finset.range (m + 1), ∑ l ∈ Finset.range (m + 1),
      a m j * a m l / 2 * (Real.cos (((j : ℤ) - l + 1 : ℤ) * t) + Real.cos (((j : ℤ) - l - 1 : ℤ) * t)) := by
    intro t
    unfold K
    rw [Finset.mul_sum]
    refine Finset.sum_congr rfl fun j _ => ?_
    rw [Finset.mul_sum]
    refine Finset.sum_congr rfl fun l _ => ?_
    push_cast
    rw [show ((j : ℝ) - l + 1) * t = (j - l) * t + t by ring, show ((j : ℝ) - l - 1) * t = (j - l) * t - t by ring, Real.cos_add, Real.cos_sub]
    ring
  simp_rw [e]
  rw [intervalIntegral.integral_finsetSum fun j _ => Continuous.intervalIntegrable (by fun_prop) _ _, ← neighbours]
  have h1 : ∀ j ∈ Finset.range (m + 1), (∫ t in (-Real.pi)..Real.pi, ∑ l ∈ Finset.range (m + 1),
      a m j * a m l / 2 * (Real.cos (((j : ℤ) - l + 1 : ℤ) * t) + Real.cos (((j : ℤ) - l - 1 : ℤ) * t))) =
      Real.pi * (a m j * a m (j - 1)) + Real.pi * (a m j * a m (j + 1)) := by
    intro j hj
    have hj' := Finset.mem_range.1 hj
    rw [intervalIntegral.integral_finsetSum fun l _ => Continuous.intervalIntegrable (by fun_prop) _ _]
    have h2 : ∀ l ∈ Finset.range (m + 1), (∫ t in (-Real.pi)..Real.pi, a m j * a m l / 2 * (Real.cos (((j : ℤ) - l + 1 : ℤ) * t) + Real.cos (((j : ℤ) - l - 1 : ℤ) * t))) =
        (if l = j + 1 then Real.pi * (a m j * a m l) else 0) + (if l + 1 = j then Real.pi * (a m j * a m l) else 0) := by
      intro l _
      rw [intervalIntegral.integral_const_mul, intervalIntegral.integral_add (Continuous.intervalIntegrable (by fun_prop) _ _) (Continuous.intervalIntegrable (by fun_prop) _ _),
        integral_cos_int, integral_cos_int, mul_add]
      congr 1
      · by_cases h : l = j + 1
        · rw [if_pos (by omega), if_pos h]; ring
        · rw [if_neg (by omega), if_neg h, mul_zero]
      · by_cases h : l + 1 = j
        · rw [if_pos (by omega), if_pos h]; ring
        · rw [if_neg (by omega), if_neg h, mul_zero]
    rw [Finset.sum_congr rfl h2, Finset.sum_add_distrib, add_comm]
    congr 1
    · rcases Nat.eq_zero_or_pos j with rfl | hpos
      · rw [Finset.sum_eq_zero fun l _ => if_neg (by omega)]
        push_cast
        rw [a_neg_one]; ring
      · rw [Finset.sum_eq_single (j - 1) (fun l _ hl => if_neg (by omega)) (fun h => absurd (Finset.mem_range.2 (by omega)) h), if_pos (by omega)]
        rw [Nat.cast_sub hpos, Nat.cast_one]
    · by_cases hjm : j = m
      · subst hjm
        rw [Finset.sum_eq_zero fun l hl => if_neg (by have := Finset.mem_range.1 hl; omega), a_end]; ring
      · rw [Finset.sum_eq_single (j + 1) (fun l _ hl => if_neg hl) (fun h => absurd (Finset.mem_range.2 (by omega)) h), if_pos rfl]
        push_cast; rfl
  rw [Finset.sum_congr rfl h1, Finset.sum_add_distrib, ← Finset.mul_sum, ← Finset.mul_sum]
  have h2 : ∑ j ∈ Finset.range (m + 1), a m j * a m (j + 1) = ∑ j ∈ Finset.range m, a m j * a m (j + 1) := by
    rw [Finset.sum_range_succ, a_end, mul_zero, add_zero]
  have h3 : ∑ j ∈ Finset.range (m + 1), a m j * a m (j - 1) = ∑ j ∈ Finset.range m, a m j * a m (j + 1) := by
    rw [Finset.sum_range_succ']
    push_cast
    rw [a_neg_one, mul_zero, add_zero]
    exact Finset.sum_congr rfl fun j _ => by rw [add_sub_cancel_right, mul_comm]
  rw [h2, h3]
  ring

/-- the first absolute moment of the kernel -/
theorem moment (m : ℕ) : (∫ t in (-Real.pi)..Real.pi, |t| * K m t) ≤ Real.pi ^ 2 / (2 * (m + 2)) * (2 * Real.pi * S m) := by
  have hpi := Real.pi_pos
  have hm : (0 : ℝ) < m + 2 := by positivity
  set δ := Real.pi ^ 2 / (2 * ((m : ℝ) + 2)) with hδ
  have hδ0 : 0 < δ := by positivity
  have h1 : ∀ t ∈ Icc (-Real.pi) Real.pi, |t| * K m t ≤ (Real.pi ^ 2 / (4 * δ) + δ / 2) * K m t - Real.pi ^ 2 / (4 * δ) * (Real.cos t * K m t) := by
    intro t ht
    have hcos : Real.cos t ≤ 1 - 2 / Real.pi ^ 2 * t ^ 2 := Real.cos_le_one_sub_mul_cos_sq (abs_le.2 ht)
    have h2 : t ^ 2 ≤ Real.pi ^ 2 / 2 * (1 - Real.cos t) := by
      have : 2 / Real.pi ^ 2 * t ^ 2 ≤ 1 - Real.cos t := by linarith
      rw [div_mul_eq_mul_div, div_le_iff₀ (by positivity)] at this
      linarith
    have h3 : |t| ≤ t ^ 2 / (2 * δ) + δ / 2 := by
      have : 0 ≤ (|t| - δ) ^ 2 := sq_nonneg _
      rw [sub_sq, sq_abs] at this
      have e : t ^ 2 / (2 * δ) + δ / 2 = (t ^ 2 + δ ^ 2) / (2 * δ) := by field_simp
      rw [e, le_div_iff₀ (by positivity)]
      linarith
    have h4 : |t| ≤ Real.pi ^ 2 / (4 * δ) + δ / 2 - Real.pi ^ 2 / (4 * δ) * Real.cos t := by
      have : t ^ 2 / (2 * δ) ≤ Real.pi ^ 2 / 2 * (1 - Real.cos t) / (2 * δ) := by gcongr
      have e : Real.pi ^ 2 / 2 * (1 - Real.cos t) / (2 * δ) = Real.pi ^ 2 / (4 * δ) - Real.pi ^ 2 / (4 * δ) * Real.cos t := by field_simp; ring
      linarith
    calc |t| * K m t ≤ (Real.pi ^ 2 / (4 * δ) + δ / 2 - Real.pi ^ 2 / (4 * δ) * Real.cos t) * K m t := mul_le_mul_of_nonneg_right h4 (K_nonneg m t)
      _ = _ := by ring
  have hK := K_continuous m
  refine (intervalIntegral.integral_mono_on (by linarith) (Continuous.intervalIntegrable (by fun_prop) _ _) (Continuous.intervalIntegrable (by fun_prop) _ _) h1).trans ?_
  rw [intervalIntegral.integral_sub (Continuous.intervalIntegrable (by fun_prop) _ _) (Continuous.intervalIntegrable (by fun_prop) _ _),
    intervalIntegral.integral_const_mul, intervalIntegral.integral_const_mul, integral_K, integral_cos_K]
  have hc := Real.one_sub_sq_div_two_le_cos (x := Real.pi / (m + 2))
  have hS : 0 < 2 * Real.pi * S m := by have := S_pos m; positivity
  have h5 : Real.pi ^ 2 / (4 * δ) * (1 - Real.cos (Real.pi / (m + 2))) ≤ δ / 2 := by
    have : Real.pi ^ 2 / (4 * δ) * (1 - Real.cos (Real.pi / (m + 2))) ≤ Real.pi ^ 2 / (4 * δ) * ((Real.pi / (m + 2)) ^ 2 / 2) := by gcongr; linarith
    refine this.trans (le_of_eq ?_)
    rw [hδ]; field_simp; ring
  calc _ = (Real.pi ^ 2 / (4 * δ) * (1 - Real.cos (Real.pi / (m + 2))) + δ / 2) * (2 * Real.pi * S m) := by ring
    _ ≤ (δ / 2 + δ / 2) * (2 * Real.pi * S m) := by gcongr
    _ = _ := by ring

/-- Jackson's theorem for Lipschitz functions -/
theorem lipschitz_approx {g : ℝ → ℝ} {L : ℝ} (hg : ∀ x ∈ Icc (-1 : ℝ) 1, ∀ y ∈ Icc (-1 : ℝ) 1, |g x - g y| ≤ L * |x - y|) (m : ℕ) :
    ∃ p : ℝ[X], p.natDegree ≤ m ∧ ∀ x ∈ Icc (-1 : ℝ) 1, |g x - p.eval x| ≤ Real.pi ^ 2 * L / (2 * (m + 2)) := by
  have hpi := Real.pi_pos
  have hL : 0 ≤ L := by
    have := (abs_nonneg _).trans (hg 1 (by norm_num) (-1) (by norm_num))
    norm_num at this; linarith
  set F : ℝ → ℝ := fun t => g (Real.cos t) with hF
  have hcosI : ∀ t, Real.cos t ∈ Icc (-1 : ℝ) 1 := fun t => ⟨Real.neg_one_le_cos t, Real.cos_le_one t⟩
  have hFl : ∀ s t, |F s - F t| ≤ L * |s - t| := by
    intro s t
    refine (hg _ (hcosI s) _ (hcosI t)).trans (mul_le_mul_of_nonneg_left ?_ hL)
    have := Real.lipschitzWith_cos.dist_le_mul s t
    simpa [Real.dist_eq] using this
  have hFc : Continuous F := by
    have : LipschitzWith (Real.toNNReal L) F := LipschitzWith.of_dist_le_mul fun s t => by
      rw [Real.dist_eq, Real.dist_eq, Real.coe_toNNReal _ hL]; exact hFl s t
    exact this.continuous
  have hFe : ∀ t, F (-t) = F t := fun t => by simp [hF]
  have hFp : Function.Periodic F (2 * Real.pi) := fun t => by simp [hF]
  have hK := K_continuous m
  have hS := S_pos m
  set c : ℤ → ℝ := fun k => (2 * Real.pi * S m)⁻¹ * ∫ t in (-Real.pi)..Real.pi, F t * Real.cos (k * t) with hc
  refine ⟨∑ j ∈ Finset.range (m + 1), ∑ l ∈ Finset.range (m + 1), C (a m j * a m l * c ((j : ℤ) - l)) * Chebyshev.T ℝ ((j : ℤ) - l), ?_, ?_⟩
  · refine natDegree_sum_le_of_forall_le _ _ fun j hj => natDegree_sum_le_of_forall_le _ _ fun l hl => (natDegree_C_mul_le _ _).trans ?_
    have := Finset.mem_range.1 hj
    have := Finset.mem_range.1 hl
    refine (Chebyshev.natDegree_T ℝ _).le.trans ?_
    omega
  intro x hx
  obtain ⟨θ, rfl⟩ : ∃ θ, x = Real.cos θ := ⟨Real.arccos x, (Real.cos_arccos hx.1 hx.2).symm⟩
  -- the polynomial is the convolution with the kernel
  have hsin : ∀ k : ℤ, (∫ t in (-Real.pi)..Real.pi, F t * Real.sin (k * t)) = 0 := by
    intro k
    have h := intervalIntegral.integral_comp_neg (a := -Real.pi) (b := Real.pi) (fun t => F t * Real.sin (k * t))
    simp only [hFe, mul_neg, Real.sin_neg, neg_neg, intervalIntegral.integral_neg] at h
    linarith
  have hconv : (∫ t in (-Real.pi)..Real.pi, F (θ - t) * K m t) = ∫ t in (-Real.pi)..Real.pi, F t * K m (θ - t) := by
    have h1 := intervalIntegral.integral_comp_sub_left (a := -Real.pi) (b := Real.pi) (fun t => F t * K m (θ - t)) θ
    simp only [sub_sub_cancel] at h1
    rw [h1]
    have hper : Function.Periodic (fun t => F t * K m (θ - t)) (2 * Real.pi) := by
      intro t
      simp only [hFp t]
      rw [show θ - (t + 2 * Real.pi) = θ - t - 2 * Real.pi by ring, (K_periodic m).sub_eq]
    have := hper.intervalIntegral_add_eq (θ - Real.pi) (-Real.pi)
    rw [show θ - Real.pi + 2 * Real.pi = θ - -Real.pi by ring, show -Real.pi + 2 * Real.pi = Real.pi by ring] at this
    exact this
  have hpoly : (∑ j ∈ Finset.range (m + 1), ∑ l ∈ Finset.range (m + 1), C (a m j * a m l * c ((j : ℤ) - l)) * Chebyshev.T ℝ ((j : ℤ) - l)).eval (Real.cos θ) =
      (2 * Real.pi * S m)⁻¹ * ∫ t in (-Real.pi)..Real.pi, F (θ - t) * K m t := by
    rw [hconv, eval_finsetSum]
    have e : ∀ t, F t * K m (θ - t) = ∑ j ∈ Finset.range (m + 1), ∑ l ∈ Finset.range (m + 1),
        (a m j * a m l * Real.cos (((j : ℤ) - l : ℤ) * θ) * (F t * Real.cos (((j : ℤ) - l : ℤ) * t)) +
          a m j * a m l * Real.sin (((j : ℤ) - l : ℤ) * θ) * (F t * Real.sin (((j : ℤ) - l : ℤ) * t))) := by
      intro t
      unfold K
      rw [Finset.mul_sum]
      refine Finset.sum_congr rfl fun j _ => ?_
      rw [Finset.mul_sum]
      refine Finset.sum_congr rfl fun l _ => ?_
      rw [mul_sub, Real.cos_sub]
      ring
    simp_rw [e]
    rw [intervalIntegral.integral_finsetSum fun j _ => Continuous.intervalIntegrable (by fun_prop) _ _, Finset.mul_sum]
    refine Finset.sum_congr rfl fun j _ => ?_
    rw [eval_finsetSum, intervalIntegral.integral_finsetSum fun l _ => Continuous.intervalIntegrable (by fun_prop) _ _, Finset.mul_sum]
    refine Finset.sum_congr rfl fun l _ => ?_
    rw [intervalIntegral.integral_add (Continuous.intervalIntegrable (by fun_prop) _ _) (Continuous.intervalIntegrable (by fun_prop) _ _),
      intervalIntegral.integral_const_mul, intervalIntegral.integral_const_mul, hsin, mul_zero, add_zero, eval_mul, eval_C, Chebyshev.T_real_cos]
    simp only [hc]
    ring
  rw [hpoly]
  have hnorm : g (Real.cos θ) = (2 * Real.pi * S m)⁻¹ * ∫ t in (-Real.pi)..Real.pi, F θ * K m t := by
    rw [intervalIntegral.integral_const_mul, integral_K]
    field_simp
    rfl
  rw [hnorm, ← mul_sub, ← intervalIntegral.integral_sub (Continuous.intervalIntegrable (by fun_prop) _ _) (Continuous.intervalIntegrable (by fun_prop) _ _), abs_mul,
    abs_of_pos (by positivity : 0 < (2 * Real.pi * S m)⁻¹)]
  have hb : |∫ t in (-Real.pi)..Real.pi, (F θ * K m t - F (θ - t) * K m t)| ≤ ∫ t in (-Real.pi)..Real.pi, L * (|t| * K m t) := by
    have := intervalIntegral.norm_integral_le_of_norm_le (a := -Real.pi) (b := Real.pi) (μ := volume) (f := fun t => F θ * K m t - F (θ - t) * K m t)
      (g := fun t => L * (|t| * K m t)) (by linarith) (ae_of_all _ fun t _ => ?_) (Continuous.intervalIntegrable (by fun_prop) _ _)
    · exact this
    · rw [← sub_mul, Real.norm_eq_abs, abs_mul, abs_of_nonneg (K_nonneg m t), ← mul_assoc]
      refine mul_le_mul_of_nonneg_right ?_ (K_nonneg m t)
      have := hFl θ (θ - t)
      rwa [sub_sub_cancel] at this
  rw [intervalIntegral.integral_const_mul] at hb
  have h2 := hb.trans (mul_le_mul_of_nonneg_left (moment m) hL)
  refine (mul_le_mul_of_nonneg_left h2 (by positivity)).trans (le_of_eq ?_)
  field_simp

/-- an antiderivative of a polynomial -/
theorem exists_antideriv (p : ℝ[X]) : ∃ P : ℝ[X], derivative P = p ∧ P.natDegree ≤ p.natDegree + 1 := by
  refine ⟨∑ i ∈ Finset.range (p.natDegree + 1), C (p.coeff i / (i + 1)) * X ^ (i + 1), ?_, ?_⟩
  · conv_rhs => rw [p.as_sum_range_C_mul_X_pow]
    rw [derivative_sum]
    refine Finset.sum_congr rfl fun i _ => ?_
    have : (i : ℝ) + 1 ≠ 0 := by positivity
    rw [derivative_C_mul_X_pow, Nat.add_sub_cancel]
    push_cast
    rw [div_mul_cancel₀ _ this]
  · refine natDegree_sum_le_of_forall_le _ _ fun i hi => (natDegree_C_mul_X_pow_le _ _).trans ?_
    have := Finset.mem_range.1 hi
    omega

/-- the same on any interval -/
theorem lipschitz_approx_interval {a b : ℝ} (hab : a < b) {g : ℝ → ℝ} {L : ℝ} (hg : ∀ x ∈ Icc a b, ∀ y ∈ Icc a b, |g x - g y| ≤ L * |x - y|) (m : ℕ) :
    ∃ p : ℝ[X], p.natDegree ≤ m ∧ ∀ x ∈ Icc a b, |g x - p.eval x| ≤ Real.pi ^ 2 * ((b - a) / 2 * L) / (2 * (m + 2)) := by
  have hl : 0 < b - a := sub_pos.2 hab
  obtain ⟨p, hp1, hp2⟩ := lipschitz_approx (g := fun x => g ((b - a) / 2 * x + (a + b) / 2)) (L := (b - a) / 2 * L) (fun x hx y hy => by
    refine (hg _ ⟨by nlinarith [hx.1], by nlinarith [hx.2]⟩ _ ⟨by nlinarith [hy.1], by nlinarith [hy.2]⟩).trans (le_of_eq ?_)
    rw [show (b - a) / 2 * x + (a + b) / 2 - ((b - a) / 2 * y + (a + b) / 2) = (b - a) / 2 * (x - y) by ring, abs_mul, abs_of_pos (by linarith)]
    ring) m
  refine ⟨p.comp (C (2 / (b - a)) * (X - C ((a + b) / 2))), ?_, fun x hx => ?_⟩
  · refine natDegree_comp_le.trans ?_
    have : (C (2 / (b - a)) * (X - C ((a + b) / 2))).natDegree ≤ 1 := (natDegree_C_mul_le _ _).trans (natDegree_X_sub_C_le _)
    calc _ ≤ p.natDegree * 1 := Nat.mul_le_mul_left _ this
      _ ≤ m := by omega
  · have h := hp2 (2 / (b - a) * (x - (a + b) / 2)) ⟨by rw [div_mul_eq_mul_div, le_div_iff₀ hl]; linarith [hx.1], by rw [div_mul_eq_mul_div, div_le_iff₀ hl]; linarith [hx.2]⟩
    rw [show (b - a) / 2 * (2 / (b - a) * (x - (a + b) / 2)) + (a + b) / 2 = x by field_simp; ring] at h
    simpa using h

/-- Jackson's theorem for functions whose derivative of order `k` is Lipschitz -/
theorem smooth_approx {a b : ℝ} (hab : a < b) : ∀ (k : ℕ) {g : ℝ → ℝ} {M : ℝ}, ContDiffOn ℝ k g (Icc a b) →
    (∀ x ∈ Icc a b, ∀ y ∈ Icc a b, |iteratedDerivWithin k g (Icc a b) x - iteratedDerivWithin k g (Icc a b) y| ≤ M * |x - y|) →
    ∀ m : ℕ, k ≤ m → ∃ p : ℝ[X], p.natDegree ≤ m ∧ ∀ x ∈ Icc a b, |g x - p.eval x| ≤ (Real.pi ^ 2 / 4 * (b - a)) ^ (k + 1) * M / (m + 2).descFactorial (k + 1)
  | 0, g, M, _, hM, m, _ => by
    obtain ⟨p, hp1, hp2⟩ := lipschitz_approx_interval hab (g := g) (L := M) (by simpa using hM) m
    refine ⟨p, hp1, fun x hx => (hp2 x hx).trans (le_of_eq ?_)⟩
    have : ((m : ℝ) + 2) ≠ 0 := by positivity
    simp only [zero_add, pow_one, Nat.descFactorial_one]
    push_cast
    field_simp
    ring
  | k + 1, g, M, hg, hM, m, hk => by
    have hI : UniqueDiffOn ℝ (Icc a b) := uniqueDiffOn_Icc hab
    have hdiff : DifferentiableOn ℝ g (Icc a b) := hg.differentiableOn (by simp)
    obtain ⟨p, hp1, hp2⟩ : ∃ P : ℝ[X], P.natDegree ≤ m ∧ ∀ x ∈ Icc a b,
        |derivWithin g (Icc a b) x - (derivative P).eval x| ≤ (Real.pi ^ 2 / 4 * (b - a)) ^ (k + 1) * M / (m + 1).descFactorial (k + 1) := by
      have hg' : ContDiffOn ℝ k (derivWithin g (Icc a b)) (Icc a b) := by
        have := (contDiffOn_succ_iff_derivWithin hI (n := k)).1 (by exact_mod_cast hg)
        exact this.2.2
      have hM' : ∀ x ∈ Icc a b, ∀ y ∈ Icc a b,
          |iteratedDerivWithin k (derivWithin g (Icc a b)) (Icc a b) x - iteratedDerivWithin k (derivWithin g (Icc a b)) (Icc a b) y| ≤ M * |x - y| := by
        intro x hx y hy
        rw [← iteratedDerivWithin_succ']
        exact hM x hx y hy
      obtain ⟨q, hq1, hq2⟩ := smooth_approx hab k hg' hM' (m - 1) (by omega)
      obtain ⟨P, hP1, hP2⟩ := exists_antideriv q
      refine ⟨P, by omega, fun x hx => ?_⟩
      rw [hP1]
      have := hq2 x hx
      rwa [show m - 1 + 2 = m + 1 by omega] at this
    set ε := (Real.pi ^ 2 / 4 * (b - a)) ^ (k + 1) * M / (m + 1).descFactorial (k + 1) with hε
    have hlip : ∀ x ∈ Icc a b, ∀ y ∈ Icc a b, |(g x - p.eval x) - (g y - p.eval y)| ≤ ε * |x - y| := by
      intro x hx y hy
      have h := (convex_Icc a b).norm_image_sub_le_of_norm_hasDerivWithin_le (f := fun x => g x - p.eval x)
        (f' := fun x => derivWithin g (Icc a b) x - (derivative p).eval x) (C := ε)
        (fun z hz => ((hdiff z hz).hasDerivWithinAt).sub (p.hasDerivAt z).hasDerivWithinAt) (fun z hz => by rw [Real.norm_eq_abs]; exact hp2 z hz) hy hx
      simpa [Real.norm_eq_abs] using h
    obtain ⟨q, hq1, hq2⟩ := lipschitz_approx_interval hab hlip m
    refine ⟨p + q, (natDegree_add_le _ _).trans (max_le hp1 hq1), fun x hx => ?_⟩
    have := hq2 x hx
    rw [eval_add, ← sub_sub]
    refine this.trans (le_of_eq ?_)
    rw [show m + 2 = m + 1 + 1 from rfl, Nat.succ_descFactorial_succ (m + 1) (k + 1), hε]
    have : ((m + 1).descFactorial (k + 1) : ℝ) ≠ 0 := by
      have := Nat.pos_of_ne_zero fun h => absurd (Nat.descFactorial_eq_zero_iff_lt.1 h) (by omega : ¬ m + 1 < k + 1)
      exact_mod_cast this.ne'
    push_cast
    have : ((m : ℝ) + 2) ≠ 0 := by positivity
    rw [show (m : ℝ) + 1 + 1 = m + 2 by ring, pow_succ (Real.pi ^ 2 / 4 * (b - a)) (k + 1)]
    field_simp
    norm_num

end GaussQuad.Jackson
