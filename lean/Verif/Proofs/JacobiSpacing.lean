import Verif.Proofs.NodeSpacing
import Verif.Proofs.OrthogonalJacobi
import Mathlib.Analysis.SpecialFunctions.Trigonometric.Inverse

/-!
# Spacing of the Gauss-Jacobi nodes

With `x = cos θ`, the function `sin(θ/2)^(α + 1/2) cos(θ/2)^(β + 1/2) p_n(cos θ)` solves `u'' = -q u` with
`q = (n + (α + β + 1)/2)² + (1/4 - α²) / (4 sin²(θ/2)) + (1/4 - β²) / (4 cos²(θ/2))`.
-/

namespace GaussQuad
open Polynomial Spec MeasureTheory

variable {α β : ℝ}

theorem jac_ode_rel (hα : -1 < α) (hβ : -1 < β) (hs : α + β ≠ -1) (k : ℕ) :
    k * jacD α β k - (2 * k + α + β + 1) * jacA α β k = (k + α + β + 1) * jacD α β (k + 1) ∧
    (k + 1) * (k + α + β + 1) * jacD α β (k + 1) ^ 2 + (2 * k + α + β + 1) * (2 * k + α + β + 3) * jacB α β k ^ 2 = (k + 1) * (k + α + β + 1) ∧
    (2 * k + α + β + 2) * jacD α β (k + 1) = α - β := by
  have hk : (0 : ℝ) ≤ k := Nat.cast_nonneg k
  have h2 : 2 * (k : ℝ) + α + β + 2 ≠ 0 := by linarith
  have h3 : 2 * (k : ℝ) + α + β + 3 ≠ 0 := by linarith
  have h1 : 2 * (k : ℝ) + α + β + 1 ≠ 0 := by
    rcases Nat.eq_zero_or_pos k with rfl | h
    · intro h; apply hs; push_cast at h; linarith
    · have : (1 : ℝ) ≤ k := by exact_mod_cast h
      linarith
  have d1 : jacD α β (k + 1) = (α - β) / (2 * k + α + β + 2) := by
    rw [jacD]; push_cast; congr 1; ring
  refine ⟨?_, ?_, ?_⟩
  · rcases Nat.eq_zero_or_pos k with rfl | h
    · rw [d1, jacA, if_pos rfl]
      have h2' : 2 + β + α ≠ 0 := by linarith
      push_cast at *
      simp only [mul_zero, zero_add, zero_mul] at *
      field_simp
      ring
    · have : (1 : ℝ) ≤ k := by exact_mod_cast h
      have h0 : 2 * (k : ℝ) + α + β ≠ 0 := by linarith
      rw [d1, jacA, if_neg (by omega), jacD]
      obtain ⟨t, ht⟩ : ∃ t, t = 2 * (k : ℝ) + α + β := ⟨_, rfl⟩
      rw [← ht] at h0 h2 ⊢
      obtain rfl : α = t - 2 * k - β := by linarith
      field_simp
      ring
  · rw [jacB_sq hα hβ hs k, d1, show 2 * ((k : ℝ) + 1) + α + β = 2 * k + α + β + 2 by ring, show 2 * (k : ℝ) + α + β + 2 + 1 = 2 * k + α + β + 3 by ring,
      show 2 * (k : ℝ) + α + β + 2 - 1 = 2 * k + α + β + 1 by ring]
    obtain ⟨t, ht⟩ : ∃ t, t = 2 * (k : ℝ) + α + β := ⟨_, rfl⟩
    rw [← ht] at h1 h2 h3 ⊢
    obtain rfl : α = t - 2 * k - β := by linarith
    field_simp
    ring
  · rw [d1]; field_simp

theorem jacobi_structure (hα : -1 < α) (hβ : -1 < β) (hs : α + β ≠ -1) (k : ℕ) : (1 - X ^ 2) * derivative (monicSeq (jacA α β) (jacB α β) k) =
    (C ((k + α + β + 1) * jacD α β (k + 1)) + C (k + α + β + 1) * X) * monicSeq (jacA α β) (jacB α β) k - C (2 * k + α + β + 1) * monicSeq (jacA α β) (jacB α β) (k + 1) := by
  refine Polynomial.funext fun x => ?_
  have h1 := jacobi_derivative_eval hα hβ hs x k
  have h2 := (monicSeq_rec_eval (jacA α β) (jacB α β) k x).1
  have h3 := (jac_ode_rel hα hβ hs k).1
  simp only [eval_mul, eval_X, eval_sub, eval_add, eval_C, eval_one, eval_pow]
  rw [h1, h2]
  linear_combination (monicSeq (jacA α β) (jacB α β) k).eval x * h3

/-- Jacobi's differential equation -/
theorem jacobi_ode (hα : -1 < α) (hβ : -1 < β) (hs : α + β ≠ -1) (n : ℕ) {x : ℝ} (hx : 1 - x ^ 2 ≠ 0) :
    (1 - x ^ 2) * (derivative (derivative (monicSeq (jacA α β) (jacB α β) n))).eval x - (α - β + (α + β + 2) * x) * (derivative (monicSeq (jacA α β) (jacB α β) n)).eval x +
      n * (n + α + β + 1) * (monicSeq (jacA α β) (jacB α β) n).eval x = 0 := by
  have h0 := congrArg (eval x) (jacobi_structure hα hβ hs n)
  have h1 := congrArg (fun p => eval x (derivative p)) (jacobi_structure hα hβ hs n)
  have h2 := jacobi_derivative_eval hα hβ hs x (n + 1)
  obtain ⟨r1, r2, r3⟩ := jac_ode_rel hα hβ hs n
  simp only [derivative_mul, derivative_sub, derivative_add, derivative_X, derivative_C, derivative_one, derivative_X_pow, eval_add, eval_mul, eval_sub, eval_X, eval_C, eval_one, eval_pow, eval_neg,
    zero_sub, zero_mul, zero_add, mul_one, Nat.cast_ofNat, Nat.reduceSub, pow_one] at h0 h1
  rw [prevTerm, eval_mul, eval_C] at h2
  push_cast at h2
  generalize (derivative (derivative (monicSeq (jacA α β) (jacB α β) n))).eval x = p2 at *
  generalize (derivative (monicSeq (jacA α β) (jacB α β) n)).eval x = p1 at *
  generalize (monicSeq (jacA α β) (jacB α β) n).eval x = p0 at *
  generalize (derivative (monicSeq (jacA α β) (jacB α β) (n + 1))).eval x = s1 at *
  generalize (monicSeq (jacA α β) (jacB α β) (n + 1)).eval x = s0 at *
  generalize jacB α β n ^ 2 = b at *
  generalize jacD α β (n + 1) = d at *
  refine (mul_right_inj' hx).1 ?_
  rw [mul_zero]
  linear_combination (1 - x ^ 2) * h1 - (2 * n + α + β + 1) * h2 - (n + 1) * (d - x) * h0 - p0 * r2 + (1 - x ^ 2) * p1 * r3

/-- the Jacobi function in the angle, and its derivative -/
noncomputable def jacG (α β θ : ℝ) : ℝ := Real.sin (θ / 2) ^ (α + 1 / 2) * Real.cos (θ / 2) ^ (β + 1 / 2)
noncomputable def jacH (α β θ : ℝ) : ℝ := (α + 1 / 2) / 2 * (Real.cos (θ / 2) / Real.sin (θ / 2)) - (β + 1 / 2) / 2 * (Real.sin (θ / 2) / Real.cos (θ / 2))
noncomputable def jacU (α β : ℝ) (n : ℕ) (θ : ℝ) : ℝ := jacG α β θ * (monicSeq (jacA α β) (jacB α β) n).eval (Real.cos θ)
noncomputable def jacU' (α β : ℝ) (n : ℕ) (θ : ℝ) : ℝ := jacG α β θ *
  (jacH α β θ * (monicSeq (jacA α β) (jacB α β) n).eval (Real.cos θ) - Real.sin θ * (derivative (monicSeq (jacA α β) (jacB α β) n)).eval (Real.cos θ))
noncomputable def jacQ (α β : ℝ) (n : ℕ) (θ : ℝ) : ℝ := (n + (α + β + 1) / 2) ^ 2 + (1 / 4 - α ^ 2) / (4 * Real.sin (θ / 2) ^ 2) + (1 / 4 - β ^ 2) / (4 * Real.cos (θ / 2) ^ 2)

section angle
variable {θ : ℝ} (h0 : 0 < θ) (h1 : θ < Real.pi)
include h0 h1

theorem half_sin_pos : 0 < Real.sin (θ / 2) := Real.sin_pos_of_pos_of_lt_pi (by linarith) (by linarith [Real.pi_pos])
theorem half_cos_pos : 0 < Real.cos (θ / 2) := Real.cos_pos_of_mem_Ioo ⟨by linarith [Real.pi_pos], by linarith⟩

theorem jacG_deriv (α β : ℝ) : HasDerivAt (jacG α β) (jacG α β θ * jacH α β θ) θ := by
  have hS := half_sin_pos h0 h1
  have hC := half_cos_pos h0 h1
  have d0 : HasDerivAt (fun θ : ℝ => θ / 2) (1 / 2) θ := by simpa using (hasDerivAt_id θ).div_const 2
  have d1 := d0.sin.rpow_const (p := α + 1 / 2) (Or.inl hS.ne')
  have d2 := d0.cos.rpow_const (p := β + 1 / 2) (Or.inl hC.ne')
  refine (d1.mul d2).congr_deriv ?_
  rw [Real.rpow_sub_one hS.ne', Real.rpow_sub_one hC.ne', jacG, jacH]
  field_simp
  ring

theorem jacH_deriv (α β : ℝ) : HasDerivAt (jacH α β) (-(α + 1 / 2) / (4 * Real.sin (θ / 2) ^ 2) - (β + 1 / 2) / (4 * Real.cos (θ / 2) ^ 2)) θ := by
  have hS := half_sin_pos h0 h1
  have hC := half_cos_pos h0 h1
  have hSC := Real.sin_sq_add_cos_sq (θ / 2)
  have d0 : HasDerivAt (fun θ : ℝ => θ / 2) (1 / 2) θ := by simpa using (hasDerivAt_id θ).div_const 2
  have d := ((d0.cos.div d0.sin hS.ne').const_mul ((α + 1 / 2) / 2)).sub ((d0.sin.div d0.cos hC.ne').const_mul ((β + 1 / 2) / 2))
  refine d.congr_deriv ?_
  generalize Real.sin (θ / 2) = S at *
  generalize Real.cos (θ / 2) = K at *
  have e1 : -S * (1 / 2) * S - K * (K * (1 / 2)) = -(1 / 2) := by linear_combination -(1 / 2) * hSC
  have e2 : K * (1 / 2) * K - S * (-S * (1 / 2)) = 1 / 2 := by linear_combination 1 / 2 * hSC
  rw [e1, e2]
  field_simp
  ring

omit h0 h1 in
theorem poly_cos_deriv (p : ℝ[X]) (θ : ℝ) : HasDerivAt (fun θ : ℝ => p.eval (Real.cos θ)) (-(Real.sin θ * (derivative p).eval (Real.cos θ))) θ := by
  refine ((p.hasDerivAt (Real.cos θ)).comp θ (Real.hasDerivAt_cos θ)).congr_deriv ?_
  ring

theorem jacU_deriv (α β : ℝ) (n : ℕ) : HasDerivAt (jacU α β n) (jacU' α β n θ) θ := by
  refine ((jacG_deriv h0 h1 α β).mul (poly_cos_deriv _ θ)).congr_deriv ?_
  rw [jacU']; ring

theorem jacU'_deriv (hα : -1 < α) (hβ : -1 < β) (hs : α + β ≠ -1) (n : ℕ) : HasDerivAt (jacU' α β n) (-(jacQ α β n θ * jacU α β n θ)) θ := by
  have hS := half_sin_pos h0 h1
  have hC := half_cos_pos h0 h1
  have hsin : 0 < Real.sin θ := Real.sin_pos_of_pos_of_lt_pi h0 h1
  have h := (jacG_deriv h0 h1 α β).mul (((jacH_deriv h0 h1 α β).mul (poly_cos_deriv (monicSeq (jacA α β) (jacB α β) n) θ)).sub
    ((Real.hasDerivAt_sin θ).mul (poly_cos_deriv (derivative (monicSeq (jacA α β) (jacB α β) n)) θ)))
  refine h.congr_deriv ?_
  have hx : 1 - Real.cos θ ^ 2 = Real.sin θ ^ 2 := by linarith [Real.sin_sq_add_cos_sq θ]
  have ho := jacobi_ode hα hβ hs n (x := Real.cos θ) (by rw [hx]; positivity)
  have es : Real.sin θ = 2 * Real.sin (θ / 2) * Real.cos (θ / 2) := by rw [← Real.sin_two_mul]; ring_nf
  have ec : Real.cos θ = 2 * Real.cos (θ / 2) ^ 2 - 1 := by rw [← Real.cos_two_mul]; ring_nf
  have hSC := Real.sin_sq_add_cos_sq (θ / 2)
  rw [hx] at ho
  have hA : 2 * jacH α β θ * Real.sin θ + Real.cos θ = α - β + (α + β + 2) * Real.cos θ := by
    rw [jacH, es, ec]
    generalize Real.sin (θ / 2) = S at *
    generalize Real.cos (θ / 2) = K at *
    have e : S ^ 2 = 1 - K ^ 2 := by linarith
    field_simp
    linear_combination (-2 * β - 1) * e
  have hB : jacH α β θ ^ 2 + (-(α + 1 / 2) / (4 * Real.sin (θ / 2) ^ 2) - (β + 1 / 2) / (4 * Real.cos (θ / 2) ^ 2)) + jacQ α β n θ = n * (n + α + β + 1) := by
    rw [jacH, jacQ]
    generalize Real.sin (θ / 2) = S at *
    generalize Real.cos (θ / 2) = K at *
    have e1 : K / S * (K / S) = 1 / S ^ 2 - 1 := by field_simp; linarith
    have e2 : S / K * (S / K) = 1 / K ^ 2 - 1 := by field_simp; linarith
    have e3 : K / S * (S / K) = 1 := by field_simp
    have e4 : ∀ a : ℝ, a / (4 * S ^ 2) = a / 4 * (1 / S ^ 2) := fun a => by field_simp
    have e5 : ∀ a : ℝ, a / (4 * K ^ 2) = a / 4 * (1 / K ^ 2) := fun a => by field_simp
    rw [e4, e5, e4, e5]
    generalize K / S = u at *
    generalize S / K = v at *
    linear_combination ((α + 1 / 2) / 2) ^ 2 * e1 + ((β + 1 / 2) / 2) ^ 2 * e2 - (α + 1 / 2) * (β + 1 / 2) / 2 * e3
  simp only [Pi.sub_apply, Pi.mul_apply, jacU]
  linear_combination jacG α β θ * ho - jacG α β θ * (derivative (monicSeq (jacA α β) (jacB α β) n)).eval (Real.cos θ) * hA +
    jacG α β θ * (monicSeq (jacA α β) (jacB α β) n).eval (Real.cos θ) * hB

end angle

end GaussQuad
