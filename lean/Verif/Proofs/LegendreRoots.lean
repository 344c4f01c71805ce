import Verif.Proofs.LegendreBessel
import Verif.Proofs.BesselCode
import Verif.Proofs.LegendreAngles

/-!
# The asymptotic Gauss-Legendre nodes and weights against the true roots and weights
-/

namespace GaussQuad.LegBes
open Phase LegendrePoly LegendreOde Ode Bogaert FloatOps

/-! ## a root near a small value -/

theorem root_near {u u1 Q : ℝ → ℝ} {s δ K ε : ℝ} (hδ : 0 < δ) (hu : ∀ x ∈ Set.Icc (s - δ) (s + δ), HasDerivAt u (u1 x) x)
    (hu1 : ∀ x ∈ Set.Icc (s - δ) (s + δ), HasDerivAt u1 (-(Q x * u x)) x) (hQ : ∀ x ∈ Set.Icc (s - δ) (s + δ), |Q x| ≤ K)
    (hε : |u s| ≤ ε) (hK : K * δ ^ 2 ≤ 1 / 2) (hc : ε + K * δ * (2 * (ε + |u1 s| * δ)) * δ ≤ |u1 s| * δ) :
    ∃ θ ∈ Set.Icc (s - δ) (s + δ), u θ = 0 ∧ |u1 θ - u1 s| ≤ K * δ * (2 * (ε + |u1 s| * δ)) := by
  have hsI : s ∈ Set.Icc (s - δ) (s + δ) := ⟨by linarith, by linarith⟩
  have hlI : s - δ ∈ Set.Icc (s - δ) (s + δ) := ⟨by linarith, by linarith⟩
  have hrI : s + δ ∈ Set.Icc (s - δ) (s + δ) := ⟨by linarith, by linarith⟩
  have hcont : ContinuousOn u (Set.Icc (s - δ) (s + δ)) := fun x hx => (hu x hx).continuousAt.continuousWithinAt
  have hK0 : 0 ≤ K := (abs_nonneg _).trans (hQ s hsI)
  obtain ⟨z, hz, hmax⟩ := isCompact_Icc.exists_isMaxOn ⟨s, hsI⟩ hcont.abs
  have hdist : ∀ x ∈ Set.Icc (s - δ) (s + δ), |x - s| ≤ δ := fun x hx => abs_le.2 ⟨by linarith [hx.1], by linarith [hx.2]⟩
  have ha : ∀ x ∈ Set.Icc (s - δ) (s + δ), |u1 x - u1 s| ≤ K * |u z| * δ := by
    intro x hx
    have := (convex_Icc (s - δ) (s + δ)).norm_image_sub_le_of_norm_hasDerivWithin_le (C := K * |u z|)
      (fun x hx => (hu1 x hx).hasDerivWithinAt) (fun x hx => by
        rw [Real.norm_eq_abs, abs_neg, abs_mul]
        exact mul_le_mul (hQ x hx) (hmax hx) (abs_nonneg _) hK0) hsI hx
    simp only [Real.norm_eq_abs] at this
    exact this.trans (mul_le_mul_of_nonneg_left (hdist x hx) (by positivity))
  have hm : |u z| ≤ 2 * (ε + |u1 s| * δ) := by
    have := (convex_Icc (s - δ) (s + δ)).norm_image_sub_le_of_norm_hasDerivWithin_le (C := |u1 s| + K * |u z| * δ)
      (fun x hx => (hu x hx).hasDerivWithinAt) (fun x hx => by
        rw [Real.norm_eq_abs]
        have h1 := abs_add_le (u1 s) (u1 x - u1 s)
        rw [add_sub_cancel] at h1
        exact h1.trans (add_le_add le_rfl (ha x hx))) hsI hz
    simp only [Real.norm_eq_abs] at this
    have h2 := this.trans (mul_le_mul_of_nonneg_left (hdist z hz) (by positivity))
    have h3 := abs_add_le (u s) (u z - u s)
    rw [add_sub_cancel] at h3
    nlinarith [abs_nonneg (u z)]
  have hD : ∀ x ∈ Set.Icc (s - δ) (s + δ), |u1 x - u1 s| ≤ K * δ * (2 * (ε + |u1 s| * δ)) := fun x hx =>
    (ha x hx).trans (by
      calc K * |u z| * δ = K * δ * |u z| := by ring
        _ ≤ _ := by gcongr)
  generalize K * δ * (2 * (ε + |u1 s| * δ)) = D at hD hc
  have hg : ∀ x ∈ Set.Icc (s - δ) (s + δ), |u x - u s - u1 s * (x - s)| ≤ D * δ := by
    intro x hx
    have h0 : 0 ≤ D := (abs_nonneg _).trans (hD s hsI)
    have := (convex_Icc (s - δ) (s + δ)).norm_image_sub_le_of_norm_hasDerivWithin_le (C := D) (f := fun x => u x - u1 s * (x - s))
      (f' := fun x => u1 x - u1 s)
      (fun x hx => by
        have h2 := (((hasDerivAt_id x).sub_const s).const_mul (u1 s))
        have := (hu x hx).sub h2
        exact (this.congr_deriv (by ring)).hasDerivWithinAt) (fun x hx => by
        rw [Real.norm_eq_abs]; exact hD x hx) hsI hx
    simp only [Real.norm_eq_abs, sub_self, mul_zero, sub_zero] at this
    rw [show u x - u s - u1 s * (x - s) = u x - u1 s * (x - s) - u s by ring]
    exact this.trans (mul_le_mul_of_nonneg_left (hdist x hx) h0)
  have hl := abs_le.1 (hg _ hlI)
  have hr := abs_le.1 (hg _ hrI)
  have he := abs_le.1 hε
  have hex : ∃ θ ∈ Set.Icc (s - δ) (s + δ), u θ = 0 := by
    rcases le_total 0 (u1 s) with h | h
    · rw [abs_of_nonneg h] at hc
      have := isPreconnected_Icc.intermediate_value hlI hrI hcont
      obtain ⟨θ, h1, h2⟩ := this (show (0 : ℝ) ∈ Set.Icc (u (s - δ)) (u (s + δ)) from ⟨by nlinarith [hl.2], by nlinarith [hr.1]⟩)
      exact ⟨θ, h1, h2⟩
    · rw [abs_of_nonpos h] at hc
      have := isPreconnected_Icc.intermediate_value hrI hlI hcont
      obtain ⟨θ, h1, h2⟩ := this (show (0 : ℝ) ∈ Set.Icc (u (s + δ)) (u (s - δ)) from ⟨by nlinarith [hr.2], by nlinarith [hl.1]⟩)
      exact ⟨θ, h1, h2⟩
  obtain ⟨θ, h1, h2⟩ := hex
  exact ⟨θ, h1, h2, hD θ h1⟩

/-! ## the size of the solution at the code's node -/

theorem eta_ok : (eta).bound ≤ 50000000000000000000000000000000 := by decide +kernel

theorem T_near {α y : ℝ} (h : Box α y) : |T α y - α| ≤ W y := by
  have h1 := h.bd h.mη
  have h2 : (eta.bound : ℝ) ≤ 50000000000000000000000000000000 := by exact_mod_cast eta_ok
  have h3 := h1.trans h2
  rw [show (M : ℝ) = 100000000000000000000000000000000 by norm_num [M]] at h3
  have h4 : |rη α y| ≤ 1 / 2 := by linarith
  have hW := h.W0
  rw [T, show α * (1 + W y * rη α y) - α = W y * (α * rη α y) by ring, abs_mul, abs_of_pos hW, abs_mul, abs_of_pos h.pos]
  have := h.α_le
  have h5 : α * |rη α y| ≤ 1.5812 * (1 / 2) := by gcongr
  nlinarith

section
variable {n : ℕ} (hn : 101 ≤ n) {ν : ℝ} (hν : 2 ≤ ν) (hle : (ν / NN n) ^ 2 ≤ 5 / 2)
include hn hν hle

theorem α_pos : 0 < ν / NN n := by
  have := NN_ge hn
  exact div_pos (by linarith) (by linarith)

theorem abox : Box (ν / NN n) (yy n) := box hn (α_pos hn hν hle) hle

theorem mulN : NN n * (ν / NN n) = ν := by
  have := NN_ge hn
  field_simp

theorem T_ge : 1.9999 / NN n ≤ T (ν / NN n) (yy n) ∧ 0.9999 * (ν / NN n) ≤ T (ν / NN n) (yy n) := by
  have hN := NN_ge hn
  have hb := abox hn hν hle
  have h1 := (abs_le.1 hb.τ_close).1
  have h3 : 0.99999 * (ν / NN n) ≤ T (ν / NN n) (yy n) := by
    rw [T]; nlinarith [hb.pos]
  have h4 : 2 / NN n ≤ ν / NN n := by gcongr
  have h5 : 1.9999 / NN n ≤ 0.99999 * (2 / NN n) := by
    rw [← mul_div_assoc]; gcongr; norm_num
  have := hb.pos
  constructor <;> linarith

theorem u_small : |u n (T (ν / NN n) (yy n))| ≤ 1.0001 * (|Bessel.φ ν| + 4336 / 10 ^ 20) / √(NN n) := by
  have hN := NN_ge hn
  have hN0 : 0 < NN n := by linarith
  have hs : 0 < √(NN n) := Real.sqrt_pos.2 hN0
  obtain ⟨q1, q2⟩ := sqrt_T1 hn (α_pos hn hν hle) hle
  have hc := (compare hn (α_pos hn hν hle) hle).2
  rw [U, liou, V, mulN hn hν hle] at hc
  set p := u n (T (ν / NN n) (yy n))
  set t := √(T1 (ν / NN n) (yy n))
  have e : p = t * (p / t) := by field_simp
  have h1 : |p / t| ≤ |Bessel.φ ν| / √(NN n) + 44 / 10 ^ 16 / √(NN n) / NN n := by
    have := abs_add_le (p / t - Bessel.φ ν / √(NN n)) (Bessel.φ ν / √(NN n))
    rw [sub_add_cancel] at this
    rw [abs_div (Bessel.φ ν), abs_of_pos hs] at this
    linarith
  have h2 : 44 / 10 ^ 16 / √(NN n) / NN n ≤ 4336 / 10 ^ 20 / √(NN n) := by
    rw [div_right_comm]
    refine div_le_div_of_nonneg_right ?_ hs.le
    rw [div_le_iff₀ hN0]
    norm_num at hN ⊢; linarith
  rw [e, abs_mul, abs_of_nonneg (Real.sqrt_nonneg _)]
  calc t * |p / t| ≤ 1.0001 * (|Bessel.φ ν| / √(NN n) + 4336 / 10 ^ 20 / √(NN n)) := by
        gcongr
        linarith
    _ = _ := by ring

/-- the derivative at the code's node -/
theorem u1_close (hφ : |Bessel.φ ν| ≤ 331 / 10 ^ 17) (hφ2 : |Bessel.φ ν| ≤ 81 / 10 ^ 18 * ν) :
    |√(T1 (ν / NN n) (yy n)) * u1 n (T (ν / NN n) (yy n)) + √(NN n) * (√ν * Bessel.J1 ν)| ≤ 841 / 10 ^ 19 * √(NN n) := by
  have hN := NN_ge hn
  have hN0 : 0 < NN n := by linarith
  have hs : 0 < √(NN n) := Real.sqrt_pos.2 hN0
  have hsq : √(NN n) ^ 2 = NN n := Real.sq_sqrt hN0.le
  obtain ⟨q1, q2⟩ := sqrt_T1 hn (α_pos hn hν hle) hle
  have hb := abox hn hν hle
  have hT1 := hb.T1_pos
  have hT2 := T2_small hb
  have hc := (compare hn (α_pos hn hν hle) hle).1
  have hu := u_small hn hν hle
  rw [U1, liou1, V1, mulN hn hν hle, Bessel.φ1] at hc
  have hν0 : 0 < √ν := Real.sqrt_pos.2 (by linarith)
  have hνsq : √ν ^ 2 = ν := Real.sq_sqrt (by linarith)
  have e1 : Bessel.J0 ν / (2 * √ν) = Bessel.φ ν / (2 * ν) := by
    rw [Bessel.φ]
    generalize √ν = g at *
    subst hνsq
    field_simp
  rw [e1] at hc
  have h1 : |Bessel.φ ν / (2 * ν)| ≤ 405 / 10 ^ 19 := by
    rw [abs_div, abs_of_pos (by linarith : (0 : ℝ) < 2 * ν), div_le_iff₀ (by linarith)]
    linarith
  have h2 : |T2 (ν / NN n) (yy n) / (2 * (√(T1 (ν / NN n) (yy n)) * T1 (ν / NN n) (yy n)))| ≤ 2 / 100000 := by
    rw [abs_div, abs_of_pos (by positivity : (0 : ℝ) < 2 * (√(T1 (ν / NN n) (yy n)) * T1 (ν / NN n) (yy n))), div_le_iff₀ (by positivity)]
    have : (1 : ℝ) ≤ 2 * (√(T1 (ν / NN n) (yy n)) * T1 (ν / NN n) (yy n)) := by nlinarith
    linarith
  have hu' : |u n (T (ν / NN n) (yy n))| ≤ 34 / 10 ^ 16 / √(NN n) := by
    refine hu.trans ?_
    gcongr
    norm_num at hφ ⊢
    linarith
  generalize T2 (ν / NN n) (yy n) / (2 * (√(T1 (ν / NN n) (yy n)) * T1 (ν / NN n) (yy n))) = c2 at *
  generalize u n (T (ν / NN n) (yy n)) = p at *
  generalize √(T1 (ν / NN n) (yy n)) * u1 n (T (ν / NN n) (yy n)) = p1 at *
  generalize Bessel.φ ν / (2 * ν) = f at *
  generalize √ν * Bessel.J1 ν = X at *
  have e2 : p1 + √(NN n) * X = (p1 - c2 * p - √(NN n) * (f - X)) + c2 * p + √(NN n) * f := by ring
  have h3 : |c2 * p| ≤ 1 / 10 ^ 19 / √(NN n) := by
    rw [abs_mul]
    calc |c2| * |p| ≤ 2 / 100000 * (34 / 10 ^ 16 / √(NN n)) := by gcongr
      _ = (2 / 100000 * (34 / 10 ^ 16)) / √(NN n) := by ring
      _ ≤ _ := by gcongr; norm_num
  have h4 : |√(NN n) * f| ≤ 405 / 10 ^ 19 * √(NN n) := by
    rw [abs_mul, abs_of_pos hs, mul_comm]; gcongr
  have h5 : 44 / 10 ^ 16 / √(NN n) + 1 / 10 ^ 19 / √(NN n) ≤ 436 / 10 ^ 19 * √(NN n) := by
    rw [← add_div, div_le_iff₀ hs, mul_assoc, ← pow_two, hsq]
    norm_num at hN ⊢; linarith
  rw [e2]
  have := abs_add_le (p1 - c2 * p - √(NN n) * (f - X) + c2 * p) (√(NN n) * f)
  have := abs_add_le (p1 - c2 * p - √(NN n) * (f - X)) (c2 * p)
  linarith

/-- the half width of the interval with the root -/
noncomputable def del (n : ℕ) (ν : ℝ) : ℝ := 1.29 * (|Bessel.φ ν| + 45 / 10 ^ 18) / NN n

omit hν hle in
theorem del_pos : 0 < del n ν := by
  have hN := NN_ge hn
  have := abs_nonneg (Bessel.φ ν)
  unfold del
  apply div_pos _ (by linarith)
  positivity

omit hν hle in
theorem del_le (hφ : |Bessel.φ ν| ≤ 331 / 10 ^ 17) : del n ν ≤ 44 / 10 ^ 16 / NN n ∧ del n ν ≤ 43 / 10 ^ 18 := by
  have hN := NN_ge hn
  have hN0 : 0 < NN n := by linarith
  have h1 : 1.29 * (|Bessel.φ ν| + 45 / 10 ^ 18) ≤ 4329 / 10 ^ 18 := by norm_num at hφ ⊢; linarith
  constructor
  · unfold del; gcongr; refine h1.trans (by norm_num)
  · unfold del
    rw [div_le_iff₀ hN0]
    refine h1.trans ?_
    norm_num at hN ⊢; linarith

/-- the angles near the code's node -/
theorem near (hφ : |Bessel.φ ν| ≤ 331 / 10 ^ 17) {x : ℝ} (hx : x ∈ Set.Icc (T (ν / NN n) (yy n) - del n ν) (T (ν / NN n) (yy n) + del n ν)) :
    1.9998 / NN n ≤ x ∧ x ≤ 1.6 ∧ 0 < Real.sin x ∧ x / 1.7 ≤ Real.sin x := by
  have hN := NN_ge hn
  have hN0 : 0 < NN n := by linarith
  have hb := abox hn hν hle
  obtain ⟨d1, d2⟩ := del_le hn hφ
  have h1 := (T_ge hn hν hle).1
  have h2 := hb.T_le
  have h3 : 1.9998 / NN n ≤ x := by
    have : 1.9998 / NN n ≤ 1.9999 / NN n - 44 / 10 ^ 16 / NN n := by
      rw [← sub_div]; gcongr; norm_num
    linarith [hx.1]
  have h4 : x ≤ 1.6 := by
    norm_num at h2 d2 ⊢; linarith [hx.2]
  have hx0 : 0 < x := lt_of_lt_of_le (by positivity) h3
  obtain ⟨h5, h6⟩ := Asymptotic.sin_lower hx0 h4
  refine ⟨h3, h4, h5, ?_⟩
  rw [div_le_iff₀ h5] at h6
  rw [div_le_iff₀ (by norm_num)]; linarith

theorem Q_le (hφ : |Bessel.φ ν| ≤ 331 / 10 ^ 17) {x : ℝ} (hx : x ∈ Set.Icc (T (ν / NN n) (yy n) - del n ν) (T (ν / NN n) (yy n) + del n ν)) :
    |Q n x| ≤ 1.3 * NN n ^ 2 := by
  have hN := NN_ge hn
  have hN0 : 0 < NN n := by linarith
  obtain ⟨h1, h2, h3, h4⟩ := near hn hν hle hφ hx
  have h5 : 1 ≤ NN n * Real.sin x := by
    rw [div_le_iff₀ hN0] at h1
    rw [div_le_iff₀ (by norm_num)] at h4
    nlinarith
  have e : Q n x = NN n ^ 2 + 1 / (4 * Real.sin x ^ 2) := by simp [Q, NN]
  have h6 : 1 / (4 * Real.sin x ^ 2) ≤ 0.25 * NN n ^ 2 := by
    rw [div_le_iff₀ (by positivity)]
    nlinarith
  have h7 : 0 ≤ 1 / (4 * Real.sin x ^ 2) := by positivity
  rw [e, abs_of_nonneg (by positivity)]
  nlinarith [sq_nonneg (NN n)]

theorem exists_root (hφ : |Bessel.φ ν| ≤ 331 / 10 ^ 17) (hφ2 : |Bessel.φ ν| ≤ 81 / 10 ^ 18 * ν) (hJ : 0.63 ≤ ν * Bessel.J1 ν ^ 2)
    (hJ2 : ν * Bessel.J1 ν ^ 2 ≤ 0.65) :
    ∃ θ ∈ Set.Icc (T (ν / NN n) (yy n) - del n ν) (T (ν / NN n) (yy n) + del n ν), u n θ = 0 ∧
      |u1 n θ - u1 n (T (ν / NN n) (yy n))| ≤ 1 / 10 ^ 27 * √(NN n) := by
  have hN := NN_ge hn
  have hN0 : 0 < NN n := by linarith
  have hs : 0 < √(NN n) := Real.sqrt_pos.2 hN0
  have hsq : √(NN n) ^ 2 = NN n := Real.sq_sqrt hN0.le
  obtain ⟨q1, q2⟩ := sqrt_T1 hn (α_pos hn hν hle) hle
  have hu := u_small hn hν hle
  have hu1 := u1_close hn hν hle hφ hφ2
  have hν0 : 0 ≤ ν := by linarith
  have hX : (√ν * Bessel.J1 ν) ^ 2 = ν * Bessel.J1 ν ^ 2 := by rw [mul_pow, Real.sq_sqrt hν0]
  have hX1 : 0.79 ≤ |√ν * Bessel.J1 ν| := by
    apply abs_le_of_sq_le_sq' _ (abs_nonneg _) |>.2
    rw [sq_abs, hX]; norm_num at hJ ⊢; linarith
  have hX2 : |√ν * Bessel.J1 ν| ≤ 0.81 := by
    apply abs_le_of_sq_le_sq _ (by norm_num)
    rw [hX]; norm_num at hJ2 ⊢; linarith
  have hp0 := abs_nonneg (Bessel.φ ν)
  -- the derivative at the centre
  have hlow : 0.785 * √(NN n) ≤ |u1 n (T (ν / NN n) (yy n))| ∧ |u1 n (T (ν / NN n) (yy n))| ≤ 0.82 * √(NN n) := by
    generalize √(T1 (ν / NN n) (yy n)) = t at *
    generalize u1 n (T (ν / NN n) (yy n)) = p at *
    generalize √ν * Bessel.J1 ν = X at *
    have h1 : |√(NN n) * X| ≤ |t * p| + 841 / 10 ^ 19 * √(NN n) := by
      have := abs_add_le (t * p + √(NN n) * X) (-(t * p))
      rw [show t * p + √(NN n) * X + -(t * p) = √(NN n) * X by ring, abs_neg] at this
      linarith
    have h2 : |t * p| ≤ |√(NN n) * X| + 841 / 10 ^ 19 * √(NN n) := by
      have := abs_add_le (t * p + √(NN n) * X) (-(√(NN n) * X))
      rw [show t * p + √(NN n) * X + -(√(NN n) * X) = t * p by ring, abs_neg] at this
      linarith
    rw [abs_mul, abs_mul, abs_of_pos hs, abs_of_pos (by linarith : 0 < t)] at h1 h2
    have h3 : √(NN n) * 0.79 ≤ √(NN n) * |X| := by gcongr
    have h4 : √(NN n) * |X| ≤ √(NN n) * 0.81 := by gcongr
    have h5 : t * |p| ≤ 1.0001 * |p| := by gcongr
    have h6 : 0.9999 * |p| ≤ t * |p| := by gcongr
    norm_num at *
    constructor <;> linarith
  set e : ℝ := |Bessel.φ ν| + 45 / 10 ^ 18 with he
  have he0 : 0 < e := by positivity
  have he1 : e ≤ 34 / 10 ^ 16 := by rw [he]; norm_num at hφ ⊢; linarith
  have hd : del n ν = 1.29 * e / NN n := rfl
  have hu' : |u n (T (ν / NN n) (yy n))| ≤ 1.0001 * e / √(NN n) := by
    refine hu.trans ?_
    gcongr; rw [he]; norm_num
  have hud : |u1 n (T (ν / NN n) (yy n))| * del n ν ≤ 1.06 * e / √(NN n) := by
    calc _ ≤ 0.82 * √(NN n) * (1.29 * e / NN n) := by rw [hd]; gcongr; exact hlow.2
      _ = 0.82 * √(NN n) * (1.29 * e / √(NN n) ^ 2) := by rw [hsq]
      _ = (0.82 * 1.29) * (e / √(NN n)) := by field_simp
      _ ≤ 1.06 * (e / √(NN n)) := by gcongr; norm_num
      _ = _ := by ring
  have hud2 : 1.01 * e / √(NN n) ≤ |u1 n (T (ν / NN n) (yy n))| * del n ν := by
    calc 1.01 * e / √(NN n) = 1.01 * (e / √(NN n)) := by ring
      _ ≤ (0.785 * 1.29) * (e / √(NN n)) := by gcongr; norm_num
      _ = 0.785 * √(NN n) * (1.29 * e / √(NN n) ^ 2) := by field_simp
      _ = 0.785 * √(NN n) * (1.29 * e / NN n) := by rw [hsq]
      _ ≤ _ := by rw [hd]; gcongr; exact hlow.1
  have hKd : 1.3 * NN n ^ 2 * del n ν = 1.677 * e * NN n := by rw [hd]; field_simp; norm_num
  have hD : 1.3 * NN n ^ 2 * del n ν * (2 * (1.0001 * e / √(NN n) + |u1 n (T (ν / NN n) (yy n))| * del n ν)) ≤ 7 * e ^ 2 * √(NN n) := by
    rw [hKd]
    calc 1.677 * e * NN n * (2 * (1.0001 * e / √(NN n) + |u1 n (T (ν / NN n) (yy n))| * del n ν)) ≤
        1.677 * e * NN n * (2 * (1.0001 * e / √(NN n) + 1.06 * e / √(NN n))) := by gcongr
      _ = 1.677 * e * √(NN n) ^ 2 * (2 * (1.0001 * e / √(NN n) + 1.06 * e / √(NN n))) := by rw [hsq]
      _ = (1.677 * 2 * 2.0601) * (e ^ 2 * √(NN n)) := by field_simp; norm_num
      _ ≤ 7 * (e ^ 2 * √(NN n)) := by gcongr; norm_num
      _ = _ := by ring
  have he2 : e ^ 2 ≤ 12 / 10 ^ 30 := by
    calc e ^ 2 ≤ (34 / 10 ^ 16) ^ 2 := by gcongr
      _ ≤ _ := by norm_num
  obtain ⟨θ, h1, h2, h3⟩ := root_near (del_pos hn) (fun x hx => u_hasDerivAt (near hn hν hle hφ hx).2.2.1)
    (fun x hx => u1_hasDerivAt (near hn hν hle hφ hx).2.2.1) (fun x hx => Q_le hn hν hle hφ hx) hu'
    (by
      rw [show 1.3 * NN n ^ 2 * del n ν ^ 2 = 1.3 * NN n ^ 2 * del n ν * del n ν by ring, hKd, hd,
        show 1.677 * e * NN n * (1.29 * e / NN n) = (1.677 * 1.29) * e ^ 2 by field_simp]
      norm_num at he2 ⊢; linarith)
    (by
      refine le_trans ?_ hud2
      have h4 : 1.3 * NN n ^ 2 * del n ν * (2 * (1.0001 * e / √(NN n) + |u1 n (T (ν / NN n) (yy n))| * del n ν)) * del n ν ≤
          0.001 * e / √(NN n) := by
        calc _ ≤ 7 * e ^ 2 * √(NN n) * del n ν := by gcongr; exact (del_pos hn).le
          _ = 7 * e ^ 2 * √(NN n) * (1.29 * e / √(NN n) ^ 2) := by rw [hd, hsq]
          _ = 9.03 * e ^ 2 * (e / √(NN n)) := by field_simp; norm_num
          _ ≤ 9.03 * (12 / 10 ^ 30) * (e / √(NN n)) := by gcongr
          _ ≤ 0.001 * (e / √(NN n)) := by gcongr; norm_num
          _ = _ := by ring
      have h5 : 1.0001 * e / √(NN n) + 0.001 * e / √(NN n) ≤ 1.01 * e / √(NN n) := by
        rw [← add_div]; gcongr; nlinarith
      linarith)
  refine ⟨θ, h1, h2, h3.trans (hD.trans ?_)⟩
  gcongr
  norm_num at he2 ⊢; linarith

end

end GaussQuad.LegBes
