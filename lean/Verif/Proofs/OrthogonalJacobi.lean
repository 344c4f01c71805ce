import Verif.Proofs.Orthogonal
import Verif.Proofs.Chebyshev
import Mathlib.Analysis.SpecialFunctions.Gamma.Beta
import Mathlib.Analysis.SpecialFunctions.Integrability.Basic
import Mathlib.Analysis.SpecialFunctions.Pow.Deriv
import Mathlib.Tactic.FieldSimp

/-!
The recurrence of the Jacobi rule is that of the orthogonal polynomials of `(1-x)^α (1+x)^β` on `(-1,1)`.
-/

namespace GaussQuad
open Polynomial Spec MeasureTheory

/-- recurrence coefficients of the Jacobi rule -/
noncomputable def jacA (α β : ℝ) (k : ℕ) : ℝ :=
  if k = 0 then (β - α) / (2 + β + α) else (β * β - α * α) / ((2 * k + α + β) * (2 * k + α + β + 2))

noncomputable def jacB (α β : ℝ) (k : ℕ) : ℝ :=
  2 / (2 * (k + 1) + α + β) * Real.sqrt ((k + 1) * (k + 1 + α) * (k + 1 + β) * (k + 1 + α + β) /
    ((2 * (k + 1) + α + β + 1) * (2 * (k + 1) + α + β - 1)))

section
variable {α β : ℝ} (hα : -1 < α) (hβ : -1 < β) (hs : α + β ≠ -1)
include hα hβ

include hs in
theorem jacB_sq (k : ℕ) : jacB α β k ^ 2 = 4 * (k + 1) * (k + 1 + α) * (k + 1 + β) * (k + 1 + α + β) /
    ((2 * (k + 1) + α + β) ^ 2 * ((2 * (k + 1) + α + β + 1) * (2 * (k + 1) + α + β - 1))) := by
  have hk : (0 : ℝ) ≤ k := Nat.cast_nonneg k
  unfold jacB
  rw [mul_pow, Real.sq_sqrt, div_pow]
  · have h1 : 2 * ((k : ℝ) + 1) + α + β ≠ 0 := by linarith
    have h2 : 2 * ((k : ℝ) + 1) + α + β + 1 ≠ 0 := by linarith
    have h3 : 2 * ((k : ℝ) + 1) + α + β - 1 ≠ 0 := by
      rcases Nat.eq_zero_or_pos k with rfl | h
      · intro h; apply hs; push_cast at h; linarith
      · have : (1 : ℝ) ≤ k := by exact_mod_cast h
        linarith
    field_simp
    ring
  · rcases Nat.eq_zero_or_pos k with rfl | h
    · have h1 : 0 ≤ (1 + α + β) * (1 + α + β) := mul_self_nonneg _
      have h2 : (0 : ℝ) ≤ (1 + α) * (1 + β) := mul_nonneg (by linarith) (by linarith)
      rw [div_eq_mul_inv, mul_inv]
      rcases le_or_gt 0 (1 + α + β) with h | h
      · refine mul_nonneg (mul_nonneg (by norm_num; exact h2) (by norm_num; exact h)) (mul_nonneg ?_ ?_) <;>
        · rw [inv_nonneg]; push_cast; linarith
      · rw [mul_comm ((2 * (((0 : ℕ) : ℝ) + 1) + α + β + 1))⁻¹, ← mul_assoc]
        refine mul_nonneg (mul_nonneg_of_nonpos_of_nonpos ?_ ?_) ?_
        · refine mul_nonpos_of_nonneg_of_nonpos (by norm_num; exact h2) (by norm_num; linarith)
        · rw [inv_nonpos]; push_cast; linarith
        · rw [inv_nonneg]; push_cast; linarith
    · have : (1 : ℝ) ≤ k := by exact_mod_cast h
      refine div_nonneg (mul_nonneg (mul_nonneg (mul_nonneg ?_ ?_) ?_) ?_) (mul_nonneg ?_ ?_) <;> linarith

/-- `d_k = (α-β)/(2k+α+β)` -/
noncomputable def jacD (α β : ℝ) (k : ℕ) : ℝ := (α - β) / (2 * k + α + β)

theorem jac_rel (k : ℕ) (hs : α + β ≠ -1) :
    (k + 1) * jacD α β (k + 1) - (k + 2) * jacD α β (k + 2) = jacA α β (k + 1) ∧
    -jacA α β (k + 1) * (2 * k + α + β + 3) - k * jacD α β k + (2 * k + α + β + 1) * jacA α β k + (k + 2) * jacD α β (k + 2) = 0 ∧
    1 - jacA α β (k + 1) ^ 2 + (2 * k + α + β + 1) * jacB α β k ^ 2 - (2 * k + α + β + 5) * jacB α β (k + 1) ^ 2 = 0 := by
  have hk : (0 : ℝ) ≤ k := Nat.cast_nonneg k
  have e1 : jacA α β (k + 1) = (β * β - α * α) / ((2 * k + α + β + 2) * (2 * k + α + β + 4)) := by
    rw [jacA, if_neg (by omega)]; push_cast; congr 1; ring
  have h2 : 2 * (k : ℝ) + α + β + 2 ≠ 0 := by linarith
  have h3 : 2 * (k : ℝ) + α + β + 3 ≠ 0 := by linarith
  have h4 : 2 * (k : ℝ) + α + β + 4 ≠ 0 := by linarith
  have h5 : 2 * (k : ℝ) + α + β + 5 ≠ 0 := by linarith
  have d1 : jacD α β (k + 1) = (α - β) / (2 * k + α + β + 2) := by
    rw [jacD]; push_cast; congr 1; ring
  have d2 : jacD α β (k + 2) = (α - β) / (2 * k + α + β + 4) := by
    rw [jacD]; push_cast; congr 1; ring
  have h1 : 2 * (k : ℝ) + α + β + 1 ≠ 0 := by
    rcases Nat.eq_zero_or_pos k with rfl | h
    · intro h; apply hs; push_cast at h; linarith
    · have : (1 : ℝ) ≤ k := by exact_mod_cast h
      linarith
  refine ⟨?_, ?_, ?_⟩
  · rw [e1, d1, d2, ← mul_div_assoc, ← mul_div_assoc, div_sub_div _ _ h2 h4, div_left_inj' (mul_ne_zero h2 h4)]; ring
  · rw [e1, d2]
    rcases Nat.eq_zero_or_pos k with rfl | h
    · rw [jacA, if_pos rfl]
      push_cast at *
      have h2' : 2 + β + α ≠ 0 := by linarith
      simp only [mul_zero, zero_add, zero_mul, sub_zero] at *
      field_simp
      ring
    · have : (1 : ℝ) ≤ k := by exact_mod_cast h
      have h0 : 2 * (k : ℝ) + α + β ≠ 0 := by linarith
      rw [jacA, if_neg (by omega), jacD]
      field_simp
      ring
  · have b0 := jacB_sq hα hβ hs k
    have b1 := jacB_sq hα hβ hs (k + 1)
    rw [e1, b0, b1]
    push_cast
    rw [show 2 * ((k : ℝ) + 1) + α + β = 2 * k + α + β + 2 by ring, show 2 * ((k : ℝ) + 1 + 1) + α + β = 2 * k + α + β + 4 by ring,
      show 2 * (k : ℝ) + α + β + 2 + 1 = 2 * k + α + β + 3 by ring, show 2 * (k : ℝ) + α + β + 2 - 1 = 2 * k + α + β + 1 by ring,
      show 2 * (k : ℝ) + α + β + 4 + 1 = 2 * k + α + β + 5 by ring, show 2 * (k : ℝ) + α + β + 4 - 1 = 2 * k + α + β + 3 by ring]
    field_simp
    ring

include hs in
theorem jacobi_derivative_eval (x : ℝ) : ∀ k : ℕ, (1 - x ^ 2) * (derivative (monicSeq (jacA α β) (jacB α β) k)).eval x =
    k * (jacD α β k - x) * (monicSeq (jacA α β) (jacB α β) k).eval x +
      (2 * k + α + β + 1) * (prevTerm (jacA α β) (jacB α β) k).eval x
  | 0 => by simp [monicSeq, prevTerm]
  | 1 => by
    have h := jacB_sq hα hβ hs 0
    have h1 : 2 + α + β ≠ 0 := by linarith
    have h1' : 2 + β + α ≠ 0 := by linarith
    have h2 : 2 + α + β + 1 ≠ 0 := by linarith
    have h3 : 2 + α + β - 1 ≠ 0 := by intro h; apply hs; linarith
    have h4 : 1 + α + β ≠ 0 := by intro h; apply hs; linarith
    simp only [Nat.cast_zero, zero_add, mul_one] at h
    simp only [monicSeq, prevTerm, jacA, jacD, derivative_sub, derivative_X, derivative_C, eval_sub, eval_mul, eval_C, eval_X,
      eval_one, sub_zero, mul_one, if_true, Nat.cast_one, one_mul, h]
    field_simp
    ring
  | k + 2 => by
    have h1 := jacobi_derivative_eval x (k + 1)
    have h0 := jacobi_derivative_eval x k
    obtain ⟨hr, hd⟩ := monicSeq_rec_eval (jacA α β) (jacB α β) k x
    obtain ⟨hr1, -⟩ := monicSeq_rec_eval (jacA α β) (jacB α β) (k + 1) x
    obtain ⟨r1, r2, r3⟩ := jac_rel hα hβ k hs
    rw [hd]
    simp only [prevTerm, eval_mul, eval_C] at h1 h0 hr hr1 ⊢
    rw [hr1]
    push_cast at *
    linear_combination (x - jacA α β (k + 1)) * h1 - jacB α β k ^ 2 * h0 - jacB α β k ^ 2 * (2 * k + α + β + 1) * hr +
      (x - jacA α β (k + 1)) * r1 * (monicSeq (jacA α β) (jacB α β) (k + 1)).eval x +
      jacB α β k ^ 2 * r2 * (monicSeq (jacA α β) (jacB α β) k).eval x +
      r3 * (monicSeq (jacA α β) (jacB α β) (k + 1)).eval x

/-- the weight function of the Jacobi rule -/
noncomputable def jacW (α β x : ℝ) : ℝ := (1 - x) ^ α * (1 + x) ^ β

theorem intervalIntegrable_jacW : IntervalIntegrable (jacW α β) volume (-1) 1 := by
  have h1 : IntervalIntegrable (jacW α β) volume (-1) 0 := by
    have h : IntervalIntegrable (fun x : ℝ => (1 + x) ^ β) volume (-1) 0 := by
      have := (intervalIntegral.intervalIntegrable_rpow' (a := 0) (b := 1) hβ).comp_add_left 1
      norm_num at this
      exact this
    refine h.continuousOn_mul (g := fun x : ℝ => (1 - x) ^ α) ?_
    rw [Set.uIcc_of_le (by norm_num)]
    intro x hx
    refine (ContinuousAt.rpow_const (by fun_prop) (Or.inl ?_)).continuousWithinAt
    linarith [hx.2]
  have h2 : IntervalIntegrable (jacW α β) volume 0 1 := by
    have h : IntervalIntegrable (fun x : ℝ => (1 - x) ^ α) volume 0 1 := by
      have := (intervalIntegral.intervalIntegrable_rpow' (a := 1) (b := 0) hα).comp_sub_left 1
      norm_num at this
      exact this
    refine h.mul_continuousOn (g := fun x : ℝ => (1 + x) ^ β) ?_
    rw [Set.uIcc_of_le (by norm_num)]
    intro x hx
    refine (ContinuousAt.rpow_const (by fun_prop) (Or.inl ?_)).continuousWithinAt
    linarith [hx.1]
  exact h1.trans h2

theorem integrable_jacobi (p : ℝ[X]) : IntegrableOn (fun x => p.eval x * jacW α β x) (Set.Ioo (-1) 1) := by
  have := (intervalIntegrable_jacW hα hβ).continuousOn_mul (g := fun x => p.eval x) p.continuous.continuousOn
  rwa [intervalIntegrable_iff_integrableOn_Ioo_of_le (by norm_num)] at this

theorem posDef_jacobi : PosDef (Set.Ioo (-1) 1) (jacW α β) :=
  posDef_of_pos isOpen_Ioo ⟨0, by simp⟩ (fun x hx => mul_pos (Real.rpow_pos_of_pos (by linarith [hx.2]) _)
    (Real.rpow_pos_of_pos (by linarith [hx.1]) _)) (integrable_jacobi hα hβ)

theorem jacobi_pearson (q : ℝ[X]) : weightFunctional _ _ (integrable_jacobi hα hβ)
    ((1 - X ^ 2) * derivative q + (C (β - α) - C (α + β + 2) * X) * q) = 0 := by
  rw [weightFunctional_apply, weightIntegral, setIntegral_Ioo_eq_interval (by norm_num)]
  have h := intervalIntegral.integral_eq_sub_of_hasDerivAt_of_le (a := -1) (b := 1) (by norm_num)
    (f := fun x : ℝ => q.eval x * ((1 - x) ^ (α + 1) * (1 + x) ^ (β + 1)))
    (f' := fun x => ((1 - X ^ 2) * derivative q + (C (β - α) - C (α + β + 2) * X) * q).eval x * jacW α β x) ?_ ?_ ?_
  · rw [h]
    have h1 : α + 1 ≠ 0 := by linarith
    have h2 : β + 1 ≠ 0 := by linarith
    simp [Real.zero_rpow h1, Real.zero_rpow h2]
  · apply Continuous.continuousOn
    refine q.continuous.mul (Continuous.mul ?_ ?_)
    · exact (continuous_const.sub continuous_id).rpow_const fun _ => Or.inr (by linarith)
    · exact (continuous_const.add continuous_id).rpow_const fun _ => Or.inr (by linarith)
  · intro x hx
    have hx1 : 0 < 1 - x := by linarith [hx.2]
    have hx2 : 0 < 1 + x := by linarith [hx.1]
    have h1 := q.hasDerivAt x
    have h2 : HasDerivAt (fun x : ℝ => (1 - x) ^ (α + 1)) (-1 * (α + 1) * (1 - x) ^ (α + 1 - 1)) x :=
      ((hasDerivAt_id x).const_sub 1).rpow_const (Or.inl hx1.ne')
    have h3 : HasDerivAt (fun x : ℝ => (1 + x) ^ (β + 1)) (1 * (β + 1) * (1 + x) ^ (β + 1 - 1)) x :=
      ((hasDerivAt_id x).const_add 1).rpow_const (Or.inl hx2.ne')
    refine (h1.mul (h2.mul h3)).congr_deriv ?_
    simp only [Pi.mul_apply, eval_add, eval_sub, eval_mul, eval_C, eval_X, eval_one, eval_pow, jacW, add_sub_cancel_right,
      Real.rpow_add hx1, Real.rpow_add hx2, Real.rpow_one]
    ring
  · rw [intervalIntegrable_iff_integrableOn_Ioo_of_le (by norm_num)]
    exact integrable_jacobi hα hβ _

include hs in
theorem jacobi_step (k : ℕ) : (k + α + β + 2) * weightFunctional _ _ (integrable_jacobi hα hβ)
      (X * monicSeq (jacA α β) (jacB α β) k) =
    (k * jacD α β k + β - α) * weightFunctional _ _ (integrable_jacobi hα hβ) (monicSeq (jacA α β) (jacB α β) k) +
    (2 * k + α + β + 1) * weightFunctional _ _ (integrable_jacobi hα hβ) (prevTerm (jacA α β) (jacB α β) k) := by
  have h := jacobi_pearson hα hβ (monicSeq (jacA α β) (jacB α β) k)
  set Λ := weightFunctional _ _ (integrable_jacobi hα hβ)
  have e : (1 - X ^ 2) * derivative (monicSeq (jacA α β) (jacB α β) k) + (C (β - α) - C (α + β + 2) * X) *
      monicSeq (jacA α β) (jacB α β) k = (k * jacD α β k + β - α) • monicSeq (jacA α β) (jacB α β) k +
      (2 * k + α + β + 1) • prevTerm (jacA α β) (jacB α β) k - (k + α + β + 2) • (X * monicSeq (jacA α β) (jacB α β) k) := by
    refine Polynomial.funext fun x => ?_
    have h1 := jacobi_derivative_eval hα hβ hs x k
    simp only [eval_sub, eval_add, eval_mul, eval_C, eval_X, eval_smul, smul_eq_mul, eval_one, eval_pow]
    rw [h1]; ring
  rw [e, map_sub, map_add, map_smul, map_smul, map_smul, smul_eq_mul, smul_eq_mul, smul_eq_mul] at h
  linarith

include hs in
theorem jacobi_orthogonal : ∀ m, 1 ≤ m →
    weightFunctional _ _ (integrable_jacobi hα hβ) (monicSeq (jacA α β) (jacB α β) m) = 0 := by
  have hrec : ∀ k, weightFunctional _ _ (integrable_jacobi hα hβ) (monicSeq (jacA α β) (jacB α β) (k + 1)) =
      weightFunctional _ _ (integrable_jacobi hα hβ) (X * monicSeq (jacA α β) (jacB α β) k) -
      jacA α β k * weightFunctional _ _ (integrable_jacobi hα hβ) (monicSeq (jacA α β) (jacB α β) k) -
      weightFunctional _ _ (integrable_jacobi hα hβ) (prevTerm (jacA α β) (jacB α β) k) := by
    intro k
    rw [monicSeq_rec, sub_mul, map_sub, map_sub, ← smul_eq_C_mul, map_smul, smul_eq_mul]
  have key : ∀ k, weightFunctional _ _ (integrable_jacobi hα hβ) (monicSeq (jacA α β) (jacB α β) (k + 1)) = 0 := by
    intro k
    induction k using Nat.strong_induction_on with
    | _ k ih =>
      have hst := jacobi_step hα hβ hs k
      have hk : (0 : ℝ) ≤ k := Nat.cast_nonneg k
      have hne : (k : ℝ) + α + β + 2 ≠ 0 := by linarith
      rw [hrec]
      match k, ih with
      | 0, _ =>
        have hne' : 2 + β + α ≠ 0 := by linarith
        simp only [prevTerm, map_zero, Nat.cast_zero, zero_mul, mul_zero, zero_add, add_zero, sub_zero] at hst hne ⊢
        rw [jacA, if_pos rfl]
        field_simp
        linarith
      | 1, ih =>
        have h1 := ih 0 (by norm_num)
        rw [zero_add] at h1
        rw [h1, mul_zero, zero_add] at hst
        rw [h1, mul_zero, sub_zero]
        apply mul_left_cancel₀ hne
        rw [mul_sub, hst]; push_cast; ring
      | k + 2, ih =>
        have h1 := ih (k + 1) (by omega)
        have h0 := ih k (by omega)
        have hp : weightFunctional _ _ (integrable_jacobi hα hβ) (prevTerm (jacA α β) (jacB α β) (k + 2)) = 0 := by
          rw [prevTerm, ← smul_eq_C_mul, map_smul, h0, smul_zero]
        rw [h1, hp, mul_zero, mul_zero, add_zero] at hst
        rw [h1, hp]
        rcases mul_eq_zero.1 hst with h | h
        · exact absurd h hne
        · rw [h]; ring
  intro m hm
  obtain ⟨k, rfl⟩ : ∃ k, m = k + 1 := ⟨m - 1, by omega⟩
  exact key k

/-- the mass of the Jacobi weight -/
theorem jacobi_mass : ∫ x in Set.Ioo (-1 : ℝ) 1, jacW α β x =
    2 ^ (α + β + 1) * Real.Gamma (α + 1) * Real.Gamma (β + 1) / Real.Gamma (α + β + 2) := by
  rw [setIntegral_Ioo_eq_interval (by norm_num)]
  have hsub := intervalIntegral.integral_comp_add_left (f := fun x : ℝ => (2 - x) ^ α * x ^ β) (a := -1) (b := 1) 1
  have e1 : (fun x : ℝ => (2 - (1 + x)) ^ α * (1 + x) ^ β) = jacW α β := by
    funext x; rw [jacW]; congr 2; ring
  rw [e1] at hsub
  norm_num at hsub
  rw [hsub]
  have hb := Complex.betaIntegral_scaled ((β + 1 : ℝ) : ℂ) ((α + 1 : ℝ) : ℂ) (a := 2) (by norm_num)
  have hg := Complex.Gamma_mul_Gamma_eq_betaIntegral (s := ((β + 1 : ℝ) : ℂ)) (t := ((α + 1 : ℝ) : ℂ))
    (by rw [Complex.ofReal_re]; linarith) (by rw [Complex.ofReal_re]; linarith)
  have hc : ((∫ x in (0 : ℝ)..2, (2 - x) ^ α * x ^ β : ℝ) : ℂ) =
      ∫ x in (0 : ℝ)..2, (x : ℂ) ^ (((β + 1 : ℝ) : ℂ) - 1) * (((2 : ℝ) : ℂ) - x) ^ (((α + 1 : ℝ) : ℂ) - 1) := by
    rw [← intervalIntegral.integral_ofReal]
    apply intervalIntegral.integral_congr
    intro x hx
    rw [Set.uIcc_of_le (by norm_num)] at hx
    simp only
    rw [Complex.ofReal_mul, Complex.ofReal_cpow hx.1, Complex.ofReal_cpow (by linarith [hx.2] : (0 : ℝ) ≤ 2 - x)]
    push_cast
    rw [add_sub_cancel_right, add_sub_cancel_right, mul_comm]
  rw [hb] at hc
  have hG : (Real.Gamma (α + β + 2) : ℂ) ≠ 0 := by
    rw [Complex.ofReal_ne_zero]; exact (Real.Gamma_pos_of_pos (by linarith)).ne'
  have hG' : Real.Gamma (α + β + 2) ≠ 0 := (Real.Gamma_pos_of_pos (by linarith)).ne'
  rw [eq_div_iff hG']
  have : ((∫ x in (0 : ℝ)..2, (2 - x) ^ α * x ^ β : ℝ) * Real.Gamma (α + β + 2) : ℂ) =
      ((2 ^ (α + β + 1) * Real.Gamma (α + 1) * Real.Gamma (β + 1) : ℝ) : ℂ) := by
    rw [hc]
    rw [← Complex.ofReal_add, Complex.Gamma_ofReal, Complex.Gamma_ofReal, Complex.Gamma_ofReal,
      show β + 1 + (α + 1) = α + β + 2 by ring] at hg
    push_cast
    have h2 : ((2 : ℝ) : ℂ) ^ (((β + 1 : ℝ) : ℂ) + ((α + 1 : ℝ) : ℂ) - 1) = ((2 : ℝ) ^ (α + β + 1) : ℝ) := by
      rw [Complex.ofReal_cpow (by norm_num)]
      congr 1; push_cast; ring
    push_cast at h2 hg ⊢
    rw [h2]
    linear_combination -(((2 : ℝ) ^ (α + β + 1) : ℝ) : ℂ) * hg
  exact_mod_cast this

end

end GaussQuad
