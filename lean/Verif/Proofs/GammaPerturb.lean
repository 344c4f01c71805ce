import Mathlib.Analysis.SpecialFunctions.Gamma.BohrMollerup
import Mathlib.Analysis.Complex.ExponentialBounds

/-!
# Conditioning of the gamma function

A relative error of the argument changes `Γ` by a bounded relative error: from the convexity of `log Γ` and the functional equation.
-/

namespace GaussQuad

/-- slope of `log Γ` between `p + 1` and `q + 1` -/
theorem logGamma_slope {p q : ℝ} (hp : 0 < p) (hpq : p < q) :
    Real.log p * (q - p) ≤ Real.log (Real.Gamma (q + 1)) - Real.log (Real.Gamma (p + 1)) ∧
      Real.log (Real.Gamma (q + 1)) - Real.log (Real.Gamma (p + 1)) ≤ Real.log (q + 1) * (q - p) := by
  have hq : 0 < q := hp.trans hpq
  have hstep : ∀ x : ℝ, 0 < x → Real.log (Real.Gamma (x + 1)) - Real.log (Real.Gamma x) = Real.log x := by
    intro x hx
    rw [Real.Gamma_add_one hx.ne', Real.log_mul hx.ne' (Real.Gamma_pos_of_pos hx).ne']
    ring
  have h1 := Real.convexOn_log_Gamma.slope_mono_adjacent (x := p) (y := p + 1) (z := q + 1) (by simpa using hp) (by simp; linarith) (by linarith) (by linarith)
  have h2 := Real.convexOn_log_Gamma.slope_mono_adjacent (x := p + 1) (y := q + 1) (z := q + 1 + 1) (by simp; linarith) (by simp; linarith) (by linarith) (by linarith)
  simp only [Function.comp_apply] at h1 h2
  rw [hstep p hp, show p + 1 - p = 1 by ring, div_one, le_div_iff₀ (by linarith)] at h1
  rw [hstep (q + 1) (by linarith), show q + 1 + 1 - (q + 1) = 1 by ring, div_one, div_le_iff₀ (by linarith)] at h2
  exact ⟨by linarith, by linarith⟩

/-- `log Γ` changes by at most `1300 δ` -/
theorem logGamma_diff {p q δ : ℝ} (hp : 0 < p) (hpq : p ≤ q) (hδ : q - p ≤ δ * p) (hq : q ≤ 200) :
    |Real.log (Real.Gamma q) - Real.log (Real.Gamma p)| ≤ 1300 * δ := by
  have hδ0 : 0 ≤ δ := by
    by_contra h
    have : δ * p < 0 := mul_neg_of_neg_of_pos (not_le.1 h) hp
    linarith
  rcases hpq.eq_or_lt with rfl | hpq
  · simpa using by linarith
  have hq0 : 0 < q := hp.trans hpq
  obtain ⟨h1, h2⟩ := logGamma_slope hp hpq
  have hG : ∀ x : ℝ, 0 < x → Real.log (Real.Gamma x) = Real.log (Real.Gamma (x + 1)) - Real.log x := by
    intro x hx
    rw [Real.Gamma_add_one hx.ne', Real.log_mul hx.ne' (Real.Gamma_pos_of_pos hx).ne']
    ring
  have h256 : Real.log (q + 1) ≤ 5.6 := by
    have : Real.log (q + 1) ≤ Real.log (2 ^ 8) := Real.log_le_log (by linarith) (by linarith)
    rw [Real.log_pow] at this
    have := Real.log_two_lt_d9
    norm_num at *
    linarith
  have hU : Real.log (q + 1) * (q - p) ≤ 1120 * δ := by
    calc Real.log (q + 1) * (q - p) ≤ 5.6 * (q - p) := mul_le_mul_of_nonneg_right h256 (by linarith)
      _ ≤ 5.6 * (δ * p) := by linarith
      _ ≤ 5.6 * (δ * 200) := by
          have : δ * p ≤ δ * 200 := mul_le_mul_of_nonneg_left (by linarith) hδ0
          linarith
      _ = 1120 * δ := by ring
  have hL : -δ ≤ Real.log p * (q - p) := by
    have h3 : 1 - p⁻¹ ≤ Real.log p := Real.one_sub_inv_le_log_of_pos hp
    have h4 : -(p⁻¹) ≤ Real.log p := by linarith
    calc -δ = -(p⁻¹) * (δ * p) := by field_simp
      _ ≤ -(p⁻¹) * (q - p) := by
          have : p⁻¹ * (q - p) ≤ p⁻¹ * (δ * p) := mul_le_mul_of_nonneg_left hδ (by positivity)
          linarith
      _ ≤ _ := mul_le_mul_of_nonneg_right h4 (by linarith)
  have hlog0 : 0 ≤ Real.log q - Real.log p := by linarith [Real.log_le_log hp hpq.le]
  have hlog1 : Real.log q - Real.log p ≤ δ := by
    rw [← Real.log_div hq0.ne' hp.ne']
    refine (Real.log_le_sub_one_of_pos (div_pos hq0 hp)).trans ?_
    rw [sub_le_iff_le_add, div_le_iff₀ hp]
    linarith
  rw [hG q hq0, hG p hp, abs_le]
  exact ⟨by linarith, by linarith⟩

/-- relative change of `Γ` under a relative change `δ` of the argument -/
theorem gamma_perturb {x y δ : ℝ} (hx : 0 < x) (hxy : |y - x| ≤ δ * x) (hx1 : x ≤ 199) (hδ : δ ≤ 1 / 10 ^ 6) :
    |Real.Gamma y - Real.Gamma x| ≤ 2620 * δ * Real.Gamma x := by
  have h := abs_le.1 hxy
  have hδ0 : 0 ≤ δ := by
    by_contra hc
    have : δ * x < 0 := mul_neg_of_neg_of_pos (not_le.1 hc) hx
    linarith [abs_nonneg (y - x)]
  have hδx : δ * x ≤ 1 / 10 ^ 6 * x := mul_le_mul_of_nonneg_right hδ hx.le
  have hy : 0 < y := by linarith [h.1]
  have hd : |Real.log (Real.Gamma y) - Real.log (Real.Gamma x)| ≤ 1301 * δ := by
    rcases le_total x y with hle | hle
    · refine (logGamma_diff (δ := δ) hx hle (by linarith [h.2]) (by linarith [h.2])).trans (by linarith)
    · rw [abs_sub_comm]
      have h1 : x - y ≤ δ * 1.0001 * y := by
        have : x * (1 - δ) ≤ y := by linarith [h.1]
        have h2 : x ≤ 1.0001 * y := by linarith [h.1]
        have h3 : δ * x ≤ δ * (1.0001 * y) := mul_le_mul_of_nonneg_left h2 hδ0
        linarith
      exact (logGamma_diff hy hle h1 (by linarith)).trans (by linarith)
  have hGx := Real.Gamma_pos_of_pos hx
  have hGy := Real.Gamma_pos_of_pos hy
  set t := Real.log (Real.Gamma y) - Real.log (Real.Gamma x)
  have he : Real.Gamma y = Real.Gamma x * Real.exp t := by
    rw [Real.exp_sub, Real.exp_log hGy, Real.exp_log hGx]
    field_simp
  have ht : |t| ≤ 1 := hd.trans (by linarith)
  have hexp := Real.abs_exp_sub_one_le ht
  calc |Real.Gamma y - Real.Gamma x| = Real.Gamma x * |Real.exp t - 1| := by
        rw [he, ← mul_sub_one, abs_mul, abs_of_pos hGx]
    _ ≤ Real.Gamma x * (2 * |t|) := mul_le_mul_of_nonneg_left hexp hGx.le
    _ ≤ Real.Gamma x * (2 * (1301 * δ)) := mul_le_mul_of_nonneg_left (by linarith) hGx.le
    _ ≤ Real.Gamma x * (2620 * δ) := mul_le_mul_of_nonneg_left (by linarith) hGx.le
    _ = 2620 * δ * Real.Gamma x := by ring

/-- `Γ ≥ 1/2` on the positive axis, by convexity and `Γ(1) = Γ(2) = 1` -/
theorem half_le_Gamma {x : ℝ} (hx : 0 < x) : 1 / 2 ≤ Real.Gamma x := by
  have hmono := Real.Gamma_strictMonoOn_Ici.monotoneOn
  have h2 : ∀ y, (2 : ℝ) ≤ y → 1 ≤ Real.Gamma y := fun y hy => by
    have := hmono (by simp : (2 : ℝ) ∈ Set.Ici 2) (by simpa using hy) hy
    rwa [Real.Gamma_two] at this
  have h3 : ∀ y, (1 : ℝ) ≤ y → 1 / 2 ≤ Real.Gamma y := fun y hy => by
    rcases le_total 2 y with h | h
    · linarith [h2 y h]
    · have := h2 (y + 1) (by linarith)
      rw [Real.Gamma_add_one (by linarith)] at this
      have hG := Real.Gamma_pos_of_pos (by linarith : 0 < y)
      nlinarith
  rcases le_total 1 x with h | h
  · exact h3 x h
  · have := h3 (x + 1) (by linarith)
    rw [Real.Gamma_add_one hx.ne'] at this
    have hG := Real.Gamma_pos_of_pos hx
    nlinarith

/-- an upper bound by a factorial -/
theorem Gamma_le_factorial {x δ : ℝ} {k : ℕ} (hx : δ ≤ x) (hδ : 0 < δ) (hδ1 : δ ≤ 1) (hk : 1 ≤ k) (hxk : x ≤ k + 1) : Real.Gamma x ≤ (Nat.factorial k : ℝ) / δ := by
  have hmono := Real.Gamma_strictMonoOn_Ici.monotoneOn
  have hk' : (1 : ℝ) ≤ k := by exact_mod_cast hk
  have hf : (1 : ℝ) ≤ Nat.factorial k := by exact_mod_cast Nat.one_le_iff_ne_zero.2 (Nat.factorial_ne_zero k)
  have h2 : ∀ y, (2 : ℝ) ≤ y → y ≤ k + 1 → Real.Gamma y ≤ Nat.factorial k := fun y hy hy' => by
    have := hmono (by simpa using hy) (by simpa using by linarith : (k : ℝ) + 1 ∈ Set.Ici 2) hy'
    rwa [Real.Gamma_nat_eq_factorial] at this
  have hone : (Nat.factorial k : ℝ) ≤ Nat.factorial k / δ := by rw [le_div_iff₀ hδ]; nlinarith
  rcases le_total 2 x with h | h
  · exact (h2 x h hxk).trans hone
  have hG : ∀ y, 0 < y → y ≤ 2 → 1 ≤ y → Real.Gamma y ≤ 1 := fun y hy0 hy hy1 => by
    have hc := Real.convexOn_Gamma.2 (by simp : (1 : ℝ) ∈ Set.Ioi 0) (by simp : (2 : ℝ) ∈ Set.Ioi 0) (by linarith : 0 ≤ 2 - y) (by linarith : 0 ≤ y - 1) (by ring)
    simp only [smul_eq_mul, Real.Gamma_one, Real.Gamma_two] at hc
    have e : (2 - y) * 1 + (y - 1) * 2 = y := by ring
    rw [e] at hc
    linarith
  rcases le_total 1 x with h1 | h1
  · exact (hG x (by linarith) h h1).trans (hf.trans hone)
  · have hx0 : 0 < x := by linarith
    have := hG (x + 1) (by linarith) (by linarith) (by linarith)
    rw [Real.Gamma_add_one hx0.ne'] at this
    calc Real.Gamma x ≤ 1 / x := by rw [le_div_iff₀ hx0]; linarith
      _ ≤ 1 / δ := div_le_div_of_nonneg_left (by norm_num) hδ hx
      _ ≤ _ := div_le_div_of_nonneg_right hf hδ.le

end GaussQuad
