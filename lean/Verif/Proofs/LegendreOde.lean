import Verif.Proofs.LegendrePoly
import Verif.Proofs.LegendreGauss
import Verif.Proofs.OdeCompare
import Mathlib.Analysis.SpecialFunctions.Trigonometric.Deriv
import Mathlib.Analysis.SpecialFunctions.Trigonometric.Basic

/-!
# Legendre's differential equation and its normal form in the angle
-/

namespace GaussQuad.LegendreOde
open Polynomial Spec LegendrePoly

/-- second derivative of `P_n` -/
noncomputable def P'' (n : ℕ) (x : ℝ) : ℝ := (derivative (derivative (legendreP n))).eval x

theorem hasDerivAt' (n : ℕ) (x : ℝ) : HasDerivAt (P' n) (P'' n x) x := (derivative (legendreP n)).hasDerivAt x

theorem legendre_ode (n : ℕ) {x : ℝ} (hx : x ^ 2 < 1) : (1 - x ^ 2) * P'' n x - 2 * x * P' n x + n * (n + 1) * P n x = 0 := by
  rcases n with _ | n
  · simp [P'', P', legendreP]
  · have h1 : HasDerivAt (fun y => (1 - y ^ 2) * P' (n + 1) y) (-(2 * x) * P' (n + 1) x + (1 - x ^ 2) * P'' (n + 1) x) x := by
      have := ((((hasDerivAt_id x).pow 2).const_sub 1).mul (hasDerivAt' (n + 1) x))
      refine this.congr_deriv ?_
      simp
    have h2 : HasDerivAt (fun y => ((n : ℝ) + 1) * (P n y - y * P (n + 1) y)) ((n + 1) * (P' n x - (P (n + 1) x + x * P' (n + 1) x))) x := by
      have := ((hasDerivAt n x).sub ((hasDerivAt_id x).mul (hasDerivAt (n + 1) x))).const_mul ((n : ℝ) + 1)
      refine this.congr_deriv ?_
      simp
    have e : (fun y => (1 - y ^ 2) * P' (n + 1) y) = fun y => ((n : ℝ) + 1) * (P n y - y * P (n + 1) y) := funext fun y => (deriv_rel n y).1
    rw [e] at h1
    have h3 := h1.unique h2
    obtain ⟨r1, r2⟩ := deriv_rel n x
    have hx' : 1 - x ^ 2 ≠ 0 := by linarith
    have h4 : P' n x - x * P' (n + 1) x = -((n + 1) * P (n + 1) x) := by
      apply mul_left_cancel₀ hx'
      linear_combination r2 - x * r1
    push_cast
    linear_combination h3 + (n + 1) * h4

/-- `√(sin θ) P_n(cos θ)` -/
noncomputable def u (n : ℕ) (θ : ℝ) : ℝ := √(Real.sin θ) * P n (Real.cos θ)

/-- its derivative -/
noncomputable def u1 (n : ℕ) (θ : ℝ) : ℝ :=
  Real.cos θ / (2 * √(Real.sin θ)) * P n (Real.cos θ) - √(Real.sin θ) * Real.sin θ * P' n (Real.cos θ)

/-- the coefficient of the normal form -/
noncomputable def Q (n : ℕ) (θ : ℝ) : ℝ := ((n : ℝ) + 1 / 2) ^ 2 + 1 / (4 * Real.sin θ ^ 2)

variable {n : ℕ} {θ : ℝ}

theorem u_hasDerivAt (h : 0 < Real.sin θ) : HasDerivAt (u n) (u1 n θ) θ := by
  have hg := (Real.hasDerivAt_sin θ).sqrt h.ne'
  have hP := (hasDerivAt n (Real.cos θ)).comp θ (Real.hasDerivAt_cos θ)
  refine (hg.mul hP).congr_deriv ?_
  simp only [u1, Function.comp]
  ring

theorem u1_hasDerivAt (h : 0 < Real.sin θ) : HasDerivAt (u1 n) (-(Q n θ * u n θ)) θ := by
  have hg := (Real.hasDerivAt_sin θ).sqrt h.ne'
  have hgp : 0 < √(Real.sin θ) := Real.sqrt_pos.2 h
  have hsq : √(Real.sin θ) ^ 2 = Real.sin θ := Real.sq_sqrt h.le
  have hP := (hasDerivAt n (Real.cos θ)).comp θ (Real.hasDerivAt_cos θ)
  have hP' := (hasDerivAt' n (Real.cos θ)).comp θ (Real.hasDerivAt_cos θ)
  have h1 := ((Real.hasDerivAt_cos θ).div (hg.const_mul 2) (mul_pos two_pos hgp).ne').mul hP
  have h2 := (hg.mul (Real.hasDerivAt_sin θ)).mul hP'
  refine (h1.sub h2).congr_deriv ?_
  have hcs := Real.sin_sq_add_cos_sq θ
  have ode := legendre_ode n (x := Real.cos θ) (by nlinarith)
  have e1 : 1 - Real.cos θ ^ 2 = Real.sin θ ^ 2 := by linarith
  rw [e1] at ode
  simp only [u, Q, Function.comp, Pi.mul_apply, Pi.div_apply]
  generalize √(Real.sin θ) = g at *
  generalize P n (Real.cos θ) = p at *
  generalize P' n (Real.cos θ) = p1 at *
  generalize P'' n (Real.cos θ) = p2 at *
  generalize Real.cos θ = c at *
  generalize Real.sin θ = s at *
  subst hsq
  field_simp
  field_simp at hcs
  linear_combination 16 * g ^ 4 * ode - 4 * p * hcs

/-- at a root, the true weight in terms of the derivative of `u` -/
theorem omega_at_root (hn : 1 ≤ n) (h : 0 < Real.sin θ) (hroot : u n θ = 0) : legOmega n (Real.cos θ) * u1 n θ ^ 2 = 2 * Real.sin θ := by
  have hgp : 0 < √(Real.sin θ) := Real.sqrt_pos.2 h
  have hsq : √(Real.sin θ) ^ 2 = Real.sin θ := Real.sq_sqrt h.le
  have hP : P n (Real.cos θ) = 0 := (mul_eq_zero.1 hroot).resolve_left hgp.ne'
  obtain ⟨m, rfl⟩ : ∃ m, n = m + 1 := ⟨n - 1, by omega⟩
  have h1 := legOmega_eq m (Real.cos θ)
  have h2 := (deriv_rel m (Real.cos θ)).1
  rw [E, hP] at h1
  rw [hP] at h2
  have hcs := Real.sin_sq_add_cos_sq θ
  have e1 : 1 - Real.cos θ ^ 2 = Real.sin θ ^ 2 := by linarith
  rw [e1] at h1 h2
  have e3 : u1 (m + 1) θ ^ 2 = Real.sin θ ^ 3 * P' (m + 1) (Real.cos θ) ^ 2 := by
    rw [u1, hP]; linear_combination Real.sin θ ^ 2 * P' (m + 1) (Real.cos θ) ^ 2 * hsq
  rw [e3]
  apply mul_left_cancel₀ h.ne'
  have e4 : ((m : ℝ) + 1) ^ 2 * P m (Real.cos θ) ^ 2 = (Real.sin θ ^ 2 * P' (m + 1) (Real.cos θ)) ^ 2 := by rw [h2]; ring
  linear_combination h1 - legOmega (m + 1) (Real.cos θ) * e4

end GaussQuad.LegendreOde
