import Verif.Proofs.ListPoly
import Mathlib.Analysis.Complex.Trigonometric
import Mathlib.Analysis.SpecialFunctions.Exponential
import Mathlib.Tactic.NormNum.NatFactorial

/-!
# The power series of `(v - sin v) / v³`
-/

namespace GaussQuad.Sinc
open ListPoly

noncomputable def sinSum (x : ℝ) (N : ℕ) : ℝ := ∑ i ∈ Finset.range N, (-1) ^ i * x ^ (2 * i + 1) / (2 * i + 1).factorial

theorem sinSum_im (x : ℝ) : ∀ N : ℕ, (∑ m ∈ Finset.range (2 * N + 1), (Complex.I * x) ^ m / (m.factorial : ℂ)).im = sinSum x N
  | 0 => by simp [sinSum]
  | N + 1 => by
    rw [show 2 * (N + 1) + 1 = 2 * N + 1 + 1 + 1 by ring, Finset.sum_range_succ, Finset.sum_range_succ, Complex.add_im, Complex.add_im,
      sinSum_im x N, sinSum, sinSum, Finset.sum_range_succ]
    have h1 : (Complex.I * x) ^ (2 * N) = (((-1) ^ N * x ^ (2 * N) : ℝ) : ℂ) := by
      rw [mul_pow, pow_mul Complex.I, Complex.I_sq]; push_cast; rfl
    have h2 : (Complex.I * x) ^ (2 * N + 1) / (((2 * N + 1).factorial : ℕ) : ℂ) =
        (((-1) ^ N * x ^ (2 * N + 1) / (2 * N + 1).factorial : ℝ) : ℂ) * Complex.I := by
      rw [pow_succ, h1]; push_cast; ring
    have h3 : (Complex.I * x) ^ (2 * N + 1 + 1) / (((2 * N + 1 + 1).factorial : ℕ) : ℂ) =
        ((-((-1) ^ N * x ^ (2 * N + 2) / (2 * N + 1 + 1).factorial) : ℝ) : ℂ) := by
      rw [pow_succ, pow_succ, h1]
      push_cast
      have : Complex.I * Complex.I = -1 := Complex.I_mul_I
      linear_combination ((-1) ^ N * (x : ℂ) ^ (2 * N) * x * x / ((2 * N + 1 + 1).factorial : ℂ)) * this
    rw [h2, h3, Complex.ofReal_im, Complex.im_ofReal_mul, Complex.I_im, mul_one, add_zero]

theorem sin_sub_sinSum {x : ℝ} (h0 : 0 ≤ x) {N : ℕ} (h1 : x ≤ N + 1) : |Real.sin x - sinSum x N| ≤ x ^ (2 * N + 1) / (2 * N + 1).factorial * 2 := by
  have hn : ‖(x : ℂ) * Complex.I‖ = x := by simp [abs_of_nonneg h0]
  have hb := Complex.exp_bound' (x := Complex.I * x) (n := 2 * N + 1) (by
    rw [mul_comm, hn, div_le_div_iff₀ (by positivity) (by norm_num)]; push_cast; linarith)
  have him := Complex.abs_im_le_norm (Complex.exp (Complex.I * x) - ∑ m ∈ Finset.range (2 * N + 1), (Complex.I * x) ^ m / (m.factorial : ℂ))
  rw [Complex.sub_im, sinSum_im, mul_comm Complex.I, Complex.exp_ofReal_mul_I_im] at him
  rw [mul_comm Complex.I, hn] at hb
  exact him.trans hb

/-- `(v - sin v) / v³` -/
noncomputable def sinc2 (v : ℝ) : ℝ := (v - Real.sin v) / v ^ 3

theorem sin_eq {v : ℝ} (hv : v ≠ 0) : Real.sin v = v * (1 - v ^ 2 * sinc2 v) := by
  rw [sinc2]; field_simp; ring

/-- rounded coefficients `10^32 (-1)^i / (2i+3)!` -/
def S2 : List ℤ := [16666666666666666666666666666667, -833333333333333333333333333333, 19841269841269841269841269841, -275573192239858906525573192, 2505210838544171877505211, -16059043836821614599392, 76471637318198164759, -281145725434552076, 822063524662433, -1957294106339, 3868170171, -6446950, 9184]

theorem ev_approx (M z : ℝ) (hz : 0 ≤ z) : ∀ (L : List ℤ) (c : ℕ → ℝ), (∀ i (h : i < L.length), |c i * M - L[i]| ≤ 1) →
    |(∑ i ∈ Finset.range L.length, c i * z ^ i) * M - ev z L| ≤ ∑ i ∈ Finset.range L.length, z ^ i
  | [], _, _ => by simp
  | a :: L, c, h => by
    have ih := ev_approx M z hz L (fun i => c (i + 1)) (fun i hi => h (i + 1) (by simpa using hi))
    have h0 := h 0 (by simp)
    rw [List.getElem_cons_zero] at h0
    rw [List.length_cons, Finset.sum_range_succ', Finset.sum_range_succ', ev_cons]
    have e1 : ∑ k ∈ Finset.range L.length, c (k + 1) * z ^ (k + 1) = z * ∑ k ∈ Finset.range L.length, c (k + 1) * z ^ k := by
      rw [Finset.mul_sum]; exact Finset.sum_congr rfl fun i _ => by ring
    have e2 : ∑ k ∈ Finset.range L.length, z ^ (k + 1) = z * ∑ k ∈ Finset.range L.length, z ^ k := by
      rw [Finset.mul_sum]; exact Finset.sum_congr rfl fun i _ => by ring
    rw [e1, e2]
    have e : (z * ∑ k ∈ Finset.range L.length, c (k + 1) * z ^ k + c 0 * z ^ 0) * M - (a + z * ev z L) =
        z * ((∑ k ∈ Finset.range L.length, c (k + 1) * z ^ k) * M - ev z L) + (c 0 * M - a) := by ring
    rw [e]
    refine (abs_add_le _ _).trans (add_le_add ?_ (by simpa using h0))
    rw [abs_mul, abs_of_nonneg hz]
    exact mul_le_mul_of_nonneg_left ih hz

theorem coef_ok : ∀ i (h : i < S2.length), ((-1) ^ i * 100000000000000000000000000000000 - S2[i] * ((2 * i + 3).factorial : ℤ)).natAbs ≤ (2 * i + 3).factorial := by
  decide +kernel

theorem sinc2_approx {v : ℝ} (h0 : 0 < v) (h1 : v ≤ 1.7) :
    |sinc2 v - ev (v ^ 2) S2 / (100000000000000000000000000000000 : ℕ)| * (100000000000000000000000000000000 : ℕ) ≤ (1000000000 : ℕ) := by
  set M : ℝ := ((100000000000000000000000000000000 : ℕ) : ℝ) with hM
  have hM0 : 0 < M := by rw [hM]; norm_num
  have hlen : S2.length = 13 := rfl
  have hz : v ^ 2 ≤ 2.89 := by nlinarith
  have hz0 : 0 ≤ v ^ 2 := sq_nonneg v
  have ha := ev_approx M (v ^ 2) hz0 S2 (fun i => (-1) ^ i / (2 * i + 3).factorial) (fun i hi => by
    have hc := coef_ok i hi
    have hf : (0 : ℝ) < (2 * i + 3).factorial := by positivity
    have hc' : |(-1 : ℝ) ^ i * M - S2[i] * ((2 * i + 3).factorial : ℝ)| ≤ (2 * i + 3).factorial := by
      have : ((((-1) ^ i * 100000000000000000000000000000000 - S2[i] * ((2 * i + 3).factorial : ℤ)).natAbs : ℕ) : ℝ) ≤ ((2 * i + 3).factorial : ℝ) := by
        exact_mod_cast hc
      rw [Nat.cast_natAbs] at this
      push_cast at this
      rw [hM]; push_cast; exact this
    have e : (-1 : ℝ) ^ i / (2 * i + 3).factorial * M - S2[i] = ((-1 : ℝ) ^ i * M - S2[i] * ((2 * i + 3).factorial : ℝ)) / (2 * i + 3).factorial := by
      field_simp
    rw [e, abs_div, abs_of_pos hf, div_le_one hf]
    exact hc')
  rw [hlen] at ha
  have hsum : ∑ i ∈ Finset.range 13, (v ^ 2) ^ i ≤ 10000000 := by
    calc ∑ i ∈ Finset.range 13, (v ^ 2) ^ i ≤ ∑ i ∈ Finset.range 13, (2.89 : ℝ) ^ i := Finset.sum_le_sum fun i _ => by gcongr
      _ ≤ _ := by norm_num [Finset.sum_range_succ]
  have hs := sin_sub_sinSum h0.le (N := 14) (by norm_num; linarith)
  have e1 : sinSum v 14 = v - v ^ 3 * ∑ i ∈ Finset.range 13, (-1) ^ i / ((2 * i + 3).factorial : ℝ) * (v ^ 2) ^ i := by
    rw [sinSum, Finset.sum_range_succ', Finset.mul_sum]
    have : ∑ k ∈ Finset.range 13, (-1 : ℝ) ^ (k + 1) * v ^ (2 * (k + 1) + 1) / ((2 * (k + 1) + 1).factorial : ℝ) =
        -∑ i ∈ Finset.range 13, v ^ 3 * ((-1) ^ i / ((2 * i + 3).factorial : ℝ) * (v ^ 2) ^ i) := by
      rw [← Finset.sum_neg_distrib]
      refine Finset.sum_congr rfl fun i _ => ?_
      rw [show 2 * (i + 1) + 1 = 2 * i + 3 by ring, ← pow_mul, pow_add v (2 * i) 3]
      ring
    rw [this]
    norm_num
    ring
  set G := ∑ i ∈ Finset.range 13, (-1) ^ i / ((2 * i + 3).factorial : ℝ) * (v ^ 2) ^ i with hG
  have hv3 : 0 < v ^ 3 := by positivity
  have e2 : sinc2 v - G = (sinSum v 14 - Real.sin v) / v ^ 3 := by
    rw [sinc2, e1]; field_simp; ring
  have hb : |sinc2 v - G| * M ≤ 100000000 := by
    rw [e2, abs_div, abs_of_pos hv3, abs_sub_comm, div_mul_eq_mul_div, div_le_iff₀ hv3]
    have h26 : v ^ 26 ≤ 1.7 ^ 26 := by gcongr
    calc |Real.sin v - sinSum v 14| * M ≤ (v ^ 29 / (2 * 14 + 1).factorial * 2) * M := mul_le_mul_of_nonneg_right hs hM0.le
      _ = v ^ 26 * (2 * M / (2 * 14 + 1).factorial) * v ^ 3 := by ring
      _ ≤ 1.7 ^ 26 * (2 * M / (2 * 14 + 1).factorial) * v ^ 3 := by gcongr
      _ ≤ _ := by
        apply mul_le_mul_of_nonneg_right _ hv3.le
        rw [hM]; norm_num [Nat.factorial]
  have e3 : sinc2 v - ev (v ^ 2) S2 / M = (sinc2 v - G) + (G * M - ev (v ^ 2) S2) / M := by field_simp; ring
  calc |sinc2 v - ev (v ^ 2) S2 / M| * M ≤ (|sinc2 v - G| + |(G * M - ev (v ^ 2) S2) / M|) * M := by
        rw [e3]; exact mul_le_mul_of_nonneg_right (abs_add_le _ _) hM0.le
    _ = |sinc2 v - G| * M + |G * M - ev (v ^ 2) S2| := by
      rw [add_mul, abs_div, abs_of_pos hM0, div_mul_cancel₀ _ hM0.ne']
    _ ≤ 100000000 + 10000000 := add_le_add hb (ha.trans hsum)
    _ ≤ _ := by norm_num

end GaussQuad.Sinc
