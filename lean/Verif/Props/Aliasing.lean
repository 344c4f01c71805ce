import Verif.Proofs.Aliasing

/-!
# C114: the exact error of the Gauss-Chebyshev rules on Chebyshev series

`/repo/src/chebyshev/mod.rs:24-105` and `:150-217`.
-/

namespace GaussQuad.Props
open Polynomial Spec FloatOps MeasureTheory

theorem series_transport {a b : ℝ} (hab : a < b) {f : ℝ → ℝ} {c : ℕ → ℝ} (hf : IsChebyshevSeries f a b c) :
    ∀ x ∈ Set.Icc (-1 : ℝ) 1, f ((b - a) / 2 * x + (a + b) / 2) = ∑' m : ℕ, c m * (Chebyshev.T ℝ m).eval x := by
  intro x hx
  rw [hf.2 _ ⟨by nlinarith [hx.1], by nlinarith [hx.2]⟩]
  have h4 : (2 * ((b - a) / 2 * x + (a + b) / 2) - a - b) / (b - a) = x := by
    have : b - a ≠ 0 := by linarith
    field_simp; ring
  refine tsum_congr fun m => ?_
  rw [h4, T_eval_arccos hx.1 hx.2]

/-- C114 for the first kind: the error is the alternating sum of the coefficients of order `2n`, `4n`, `6n`, … -/
theorem C114_first (mode : Overflow) {n : ℕ} (hn : 0 < n) (hlt : n + 1 < 2 ^ 64) {a b : ℝ} (hab : a < b) {f : ℝ → ℝ} {c : ℕ → ℝ} (hf : IsChebyshevSeries f a b c) :
    ∃ r : Rule ℝ, GaussChebyshevFirstKind.new mode n = some r ∧
      ∫ t in a..b, f t * (1 / Real.sqrt (1 - ((2 * t - a - b) / (b - a)) ^ 2)) = (b - a) / 2 * (Real.pi * c 0) ∧
      (AnyRule.chebyshevFirst r).value a b f - ∫ t in a..b, f t * (1 / Real.sqrt (1 - ((2 * t - a - b) / (b - a)) ^ 2)) =
        (b - a) / 2 * (Real.pi * ∑' k : ℕ, (-1) ^ (k + 1) * c (2 * n * (k + 1))) := by
  have hF := series_transport hab hf
  have hi : ∫ t in a..b, f t * (1 / Real.sqrt (1 - ((2 * t - a - b) / (b - a)) ^ 2)) = (b - a) / 2 * (Real.pi * c 0) := by
    rw [integral_transported hab f fun x => 1 / Real.sqrt (1 - x ^ 2), ← setIntegral_Ioo_eq_interval (by norm_num)]
    exact congrArg _ (integral1_series hf.1 hF)
  refine ⟨_, cheb1_new_eq hlt, hi, ?_⟩
  rw [value_gauss_quad rfl, hi, ← mul_sub]
  congr 1
  have h := quad1_series hf.1 hF hn
  rw [← hasSum_nat_add_iff' 1] at h
  simp only [Finset.range_one, Finset.sum_singleton, mul_zero, pow_zero, one_mul] at h
  rw [← tsum_mul_left]
  refine ((h.congr_fun' fun k => ?_).tsum_eq).symm
  ring

/-- C114 for the second kind, with `N = n + 1`: the error is a quarter of `π` times the sum of `2 c(2N) - c(2N-2) - c(2N+2)`, `2 c(4N) - c(4N-2) - c(4N+2)`, … -/
theorem C114_second (mode : Overflow) {n : ℕ} (hn : 0 < n) (hlt : n + 1 < 2 ^ 64) {a b : ℝ} (hab : a < b) {f : ℝ → ℝ} {c : ℕ → ℝ} (hf : IsChebyshevSeries f a b c) :
    ∃ r : Rule ℝ, GaussChebyshevSecondKind.new mode n = some r ∧
      ∫ t in a..b, f t * Real.sqrt (1 - ((2 * t - a - b) / (b - a)) ^ 2) = (b - a) / 2 * (Real.pi * (c 0 / 2 - c 2 / 4)) ∧
      (AnyRule.chebyshevSecond r).value a b f - ∫ t in a..b, f t * Real.sqrt (1 - ((2 * t - a - b) / (b - a)) ^ 2) =
        (b - a) / 2 * (Real.pi / 4 * ∑' k : ℕ, (2 * c (2 * (n + 1) * (k + 1)) - c (2 * (n + 1) * (k + 1) - 2) - c (2 * (n + 1) * (k + 1) + 2))) := by
  have hF := series_transport hab hf
  have hi : ∫ t in a..b, f t * Real.sqrt (1 - ((2 * t - a - b) / (b - a)) ^ 2) = (b - a) / 2 * (Real.pi * (c 0 / 2 - c 2 / 4)) := by
    rw [integral_transported hab f fun x => Real.sqrt (1 - x ^ 2), ← setIntegral_Ioo_eq_interval (by norm_num)]
    exact congrArg _ (integral2_series hf.1 hF)
  refine ⟨_, cheb2_new_eq hlt, hi, ?_⟩
  rw [value_gauss_quad rfl, hi, ← mul_sub]
  congr 1
  rw [← tsum_mul_left]
  exact (quad2_series hf.1 hF hn).tsum_eq.symm

/-! ## error bounds from the coefficients -/

/-- C114, bound for the first kind: the error is at most the sum of the absolute values of all coefficients of order `2n` and above -/
theorem C114_first_bound (mode : Overflow) {n : ℕ} (hn : 0 < n) (hlt : n + 1 < 2 ^ 64) {a b : ℝ} (hab : a < b) {f : ℝ → ℝ} {c : ℕ → ℝ} (hf : IsChebyshevSeries f a b c) :
    ∃ r : Rule ℝ, GaussChebyshevFirstKind.new mode n = some r ∧
      |(AnyRule.chebyshevFirst r).value a b f - ∫ t in a..b, f t * (1 / Real.sqrt (1 - ((2 * t - a - b) / (b - a)) ^ 2))| ≤
        (b - a) / 2 * (Real.pi * ∑' k : ℕ, |c (2 * n + k)|) := by
  obtain ⟨r, hr, -, h⟩ := C114_first mode hn hlt hab hf
  refine ⟨r, hr, ?_⟩
  have hba : 0 ≤ (b - a) / 2 := by linarith
  rw [h, abs_mul, abs_of_nonneg hba, abs_mul, abs_of_pos Real.pi_pos]
  refine mul_le_mul_of_nonneg_left (mul_le_mul_of_nonneg_left ?_ Real.pi_pos.le) hba
  have hs : Summable fun k : ℕ => |c (2 * n + k)| := by
    simpa only [add_comm] using (summable_nat_add_iff (2 * n)).2 hf.1
  have hinj : Function.Injective fun k : ℕ => 2 * n * k := fun x y hxy => Nat.eq_of_mul_eq_mul_left (by omega) hxy
  have hs2 : Summable fun k : ℕ => |c (2 * n * (k + 1))| := (hs.comp_injective hinj).congr fun k => by
    simp only [Function.comp_apply]; rw [mul_add, mul_one, add_comm]
  have e : ∀ k : ℕ, |(-1) ^ (k + 1) * c (2 * n * (k + 1))| = |c (2 * n * (k + 1))| := fun k => by rw [abs_mul, abs_pow, abs_neg, abs_one, one_pow, one_mul]
  have h1 : |∑' k : ℕ, (-1) ^ (k + 1) * c (2 * n * (k + 1))| ≤ ∑' k : ℕ, |c (2 * n * (k + 1))| := by
    have := norm_tsum_le_tsum_norm (f := fun k : ℕ => (-1) ^ (k + 1) * c (2 * n * (k + 1))) (by simpa only [Real.norm_eq_abs, e] using hs2)
    simpa only [Real.norm_eq_abs, e] using this
  refine h1.trans ?_
  have h2 := tsum_comp_le_tsum_of_inj hs (fun _ => abs_nonneg _) hinj
  refine le_trans (le_of_eq (tsum_congr fun k => ?_)) h2
  simp only [Function.comp_apply]; rw [mul_add, mul_one, add_comm]

/-! ## examples -/

/-- the series of `x⁴` -/
noncomputable def quarticCoeff (m : ℕ) : ℝ := if m = 0 then 3 / 8 else if m = 2 then 1 / 2 else if m = 4 then 1 / 8 else 0

theorem quartic_series : IsChebyshevSeries (fun x => x ^ 4) (-1) 1 quarticCoeff := by
  have z : ∀ m, m ∉ ({0, 2, 4} : Finset ℕ) → quarticCoeff m = 0 := fun m hm => by
    simp only [Finset.mem_insert, Finset.mem_singleton, not_or] at hm
    simp [quarticCoeff, hm.1, hm.2.1, hm.2.2]
  refine ⟨summable_of_ne_finset_zero (s := {0, 2, 4}) fun m hm => by rw [z m hm, abs_zero], fun t ht => ?_⟩
  rw [tsum_eq_sum (s := {0, 2, 4}) fun m hm => by rw [z m hm, zero_mul]]
  rw [show (2 * t - -1 - 1) / (1 - -1) = t by ring]
  have hcos := Real.cos_arccos ht.1 ht.2
  have h2 := Real.cos_two_mul (Real.arccos t)
  have h4 := Real.cos_two_mul (2 * Real.arccos t)
  rw [← mul_assoc, h2, hcos] at h4
  rw [hcos] at h2
  norm_num at h4
  simp [quarticCoeff, h2, h4]
  ring

/-- the two-point rule of the first kind on `x⁴`: error `-π/8` -/
example : ∃ r : Rule ℝ, GaussChebyshevFirstKind.new .checked 2 = some r ∧
    (AnyRule.chebyshevFirst r).value (-1) 1 (fun x => x ^ 4) - ∫ t in (-1 : ℝ)..1, t ^ 4 * (1 / Real.sqrt (1 - ((2 * t - -1 - 1) / (1 - -1)) ^ 2)) = -(Real.pi / 8) := by
  obtain ⟨r, hr, -, h⟩ := C114_first .checked (n := 2) (by norm_num) (by norm_num) (by norm_num : (-1 : ℝ) < 1) quartic_series
  refine ⟨r, hr, h.trans ?_⟩
  rw [tsum_eq_single 0 fun k hk => ?_]
  · norm_num [quarticCoeff]; ring
  · have : quarticCoeff (2 * 2 * (k + 1)) = 0 := by
      have : 0 < k := Nat.pos_of_ne_zero hk
      rw [quarticCoeff, if_neg (by omega), if_neg (by omega), if_neg (by omega)]
    rw [this, mul_zero]

/-- the same error is bounded by the coefficients from order 4 on -/
example : ∃ r : Rule ℝ, GaussChebyshevFirstKind.new .checked 2 = some r ∧
    |(AnyRule.chebyshevFirst r).value (-1) 1 (fun x => x ^ 4) - ∫ t in (-1 : ℝ)..1, t ^ 4 * (1 / Real.sqrt (1 - ((2 * t - -1 - 1) / (1 - -1)) ^ 2))| ≤ Real.pi / 8 := by
  obtain ⟨r, hr, h⟩ := C114_first_bound .checked (n := 2) (by norm_num) (by norm_num) (by norm_num : (-1 : ℝ) < 1) quartic_series
  refine ⟨r, hr, h.trans (le_of_eq ?_)⟩
  rw [tsum_eq_single 0 fun k hk => ?_]
  · norm_num [quarticCoeff]; ring
  · have : 0 < k := Nat.pos_of_ne_zero hk
    rw [quarticCoeff, if_neg (by omega), if_neg (by omega), if_neg (by omega), abs_zero]

/-- the one-point rule of the second kind on `x⁴`: integral `π/16`, error `-π/16` (its only node is 0) -/
example : ∃ r : Rule ℝ, GaussChebyshevSecondKind.new .checked 1 = some r ∧
    ∫ t in (-1 : ℝ)..1, t ^ 4 * Real.sqrt (1 - ((2 * t - -1 - 1) / (1 - -1)) ^ 2) = Real.pi / 16 ∧
    (AnyRule.chebyshevSecond r).value (-1) 1 (fun x => x ^ 4) - ∫ t in (-1 : ℝ)..1, t ^ 4 * Real.sqrt (1 - ((2 * t - -1 - 1) / (1 - -1)) ^ 2) = -(Real.pi / 16) := by
  obtain ⟨r, hr, hi, h⟩ := C114_second .checked (n := 1) (by norm_num) (by norm_num) (by norm_num : (-1 : ℝ) < 1) quartic_series
  refine ⟨r, hr, hi.trans ?_, h.trans ?_⟩
  · norm_num [quarticCoeff]; ring
  · rw [tsum_eq_single 0 fun k hk => ?_]
    · norm_num [quarticCoeff]; ring
    · have : 0 < k := Nat.pos_of_ne_zero hk
      have e : ∀ m, 4 < m → quarticCoeff m = 0 := fun m hm => by rw [quarticCoeff, if_neg (by omega), if_neg (by omega), if_neg (by omega)]
      rw [e _ (by omega), e _ (by omega), e _ (by omega)]; ring

end GaussQuad.Props
