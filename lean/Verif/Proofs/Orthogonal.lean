import Verif.Proofs.GolubWelschTheory
import Verif.Proofs.GaussTheory
import Mathlib.Algebra.Polynomial.Derivative
import Mathlib.Analysis.Calculus.Deriv.Polynomial
import Mathlib.Analysis.SpecialFunctions.Gaussian.GaussianIntegral
import Mathlib.MeasureTheory.Integral.IntegralEqImproper
import Mathlib.Analysis.SpecialFunctions.Gamma.Basic
import Mathlib.Tactic.LinearCombination

/-!
The recurrences of the Hermite and Laguerre rules are those of the orthogonal polynomials of `exp(-x²)` on the line and
`x^α exp(-x)` on the half line.
-/

namespace GaussQuad
open Polynomial Spec MeasureTheory

/-- the functional `p ↦ ∫_S p w` -/
noncomputable def weightFunctional (S : Set ℝ) (w : ℝ → ℝ) (hint : ∀ p : ℝ[X], IntegrableOn (fun x => p.eval x * w x) S) :
    ℝ[X] →ₗ[ℝ] ℝ where
  toFun := weightIntegral S w
  map_add' := fun p q => by
    unfold weightIntegral
    rw [← integral_add (hint p) (hint q)]
    congr 1; ext x; rw [eval_add]; ring
  map_smul' := fun c p => by
    unfold weightIntegral
    simp only [RingHom.id_apply, smul_eq_mul]
    rw [← integral_const_mul]
    congr 1; ext x; rw [eval_smul, smul_eq_mul]; ring

theorem weightFunctional_apply {S : Set ℝ} {w : ℝ → ℝ} (hint : ∀ p : ℝ[X], IntegrableOn (fun x => p.eval x * w x) S) (p : ℝ[X]) :
    weightFunctional S w hint p = weightIntegral S w p := rfl

/-- the last term of the recurrence: `prev k = b_{k-1}² π_{k-1}` -/
noncomputable def prevTerm (a b : ℕ → ℝ) : ℕ → ℝ[X]
  | 0 => 0
  | k + 1 => C (b k ^ 2) * monicSeq a b k

theorem monicSeq_rec (a b : ℕ → ℝ) (k : ℕ) :
    monicSeq a b (k + 1) = (X - C (a k)) * monicSeq a b k - prevTerm a b k := by
  cases k with
  | zero => simp [monicSeq, prevTerm]
  | succ k => rw [monicSeq, prevTerm]

/-- integrability of polynomials from integrability of monomials -/
theorem integrableOn_poly {S : Set ℝ} {w : ℝ → ℝ} (h : ∀ k : ℕ, IntegrableOn (fun x => x ^ k * w x) S) (p : ℝ[X]) :
    IntegrableOn (fun x => p.eval x * w x) S := by
  have : (fun x => p.eval x * w x) = fun x => ∑ i ∈ Finset.range (p.natDegree + 1), p.coeff i * (x ^ i * w x) := by
    ext x
    rw [eval_eq_sum_range, Finset.sum_mul]
    exact Finset.sum_congr rfl fun i _ => by ring
  rw [this]
  exact integrable_finset_sum _ fun i _ => (h i).const_mul _

/-! ### Hermite -/

/-- recurrence coefficients of the Hermite rule -/
noncomputable def hermA (_ : ℕ) : ℝ := 0
noncomputable def hermB (k : ℕ) : ℝ := Real.sqrt ((1 + k) * (1 / 2))

theorem hermB_sq (k : ℕ) : hermB k ^ 2 = (1 + k) / 2 := by
  unfold hermB
  rw [Real.sq_sqrt (by positivity)]; ring

/-- derivative of the recurrence at a point -/
theorem monicSeq_rec_eval (a b : ℕ → ℝ) (k : ℕ) (x : ℝ) :
    (monicSeq a b (k + 1)).eval x = (x - a k) * (monicSeq a b k).eval x - (prevTerm a b k).eval x ∧
    (derivative (monicSeq a b (k + 2))).eval x = (monicSeq a b (k + 1)).eval x +
      (x - a (k + 1)) * (derivative (monicSeq a b (k + 1))).eval x - b k ^ 2 * (derivative (monicSeq a b k)).eval x := by
  constructor
  · rw [monicSeq_rec]; simp
  · rw [monicSeq]; simp [-map_pow]

theorem hermite_derivative_eval (x : ℝ) : ∀ k, 1 / 2 * (derivative (monicSeq hermA hermB k)).eval x = (prevTerm hermA hermB k).eval x
  | 0 => by simp [monicSeq, prevTerm]
  | 1 => by simp [monicSeq, prevTerm, hermB_sq, -map_pow]
  | k + 2 => by
    have h1 := hermite_derivative_eval x (k + 1)
    have h0 := hermite_derivative_eval x k
    obtain ⟨hr, hd⟩ := monicSeq_rec_eval hermA hermB k x
    rw [hd]
    simp only [prevTerm, hermB_sq, hermA, eval_mul, eval_C, Nat.cast_add, Nat.cast_one] at h1 h0 hr ⊢
    linear_combination x * h1 - (1 + (k : ℝ)) / 2 * h0 - (1 + (k : ℝ)) / 2 * hr

theorem hermite_derivative (k : ℕ) : C (1 / 2 : ℝ) * derivative (monicSeq hermA hermB k) = prevTerm hermA hermB k :=
  Polynomial.funext fun x => by rw [← hermite_derivative_eval x k]; simp

/-- the weight function of the Hermite rule -/
noncomputable def hermW (x : ℝ) : ℝ := Real.exp (-x ^ 2)

theorem integrable_hermite (p : ℝ[X]) : IntegrableOn (fun x => p.eval x * hermW x) Set.univ := by
  refine integrableOn_poly (fun k => ?_) p
  rw [integrableOn_univ]
  have h := integrable_rpow_mul_exp_neg_mul_sq (b := 1) one_pos (s := k) (by
    have : (0 : ℝ) ≤ k := Nat.cast_nonneg k
    linarith)
  refine h.congr (Filter.Eventually.of_forall fun x => ?_)
  simp [hermW]

theorem posDef_hermite : PosDef Set.univ hermW :=
  posDef_of_pos isOpen_univ Set.univ_nonempty (fun _ _ => Real.exp_pos _) integrable_hermite

theorem hermite_pearson (q : ℝ[X]) : weightIntegral Set.univ hermW (C (1 / 2 : ℝ) * derivative q) =
    weightIntegral Set.univ hermW (X * q) := by
  have h := integral_eq_zero_of_hasDerivAt_of_integrable (f := fun x => q.eval x * hermW x)
    (f' := fun x => (derivative q - C 2 * (X * q)).eval x * hermW x) ?_ ?_ ?_
  · have hl : weightIntegral Set.univ hermW (derivative q - C 2 * (X * q)) = 0 := by
      unfold weightIntegral
      rw [setIntegral_univ]; exact h
    have h2 := weightFunctional_apply integrable_hermite (derivative q - C 2 * (X * q))
    rw [hl, map_sub, ← smul_eq_C_mul, map_smul, smul_eq_mul] at h2
    have h3 := (weightFunctional _ _ integrable_hermite).map_smul (1 / 2) (derivative q)
    rw [smul_eq_C_mul, smul_eq_mul] at h3
    simp only [weightFunctional_apply] at h2 h3
    rw [h3]; linarith
  · intro x
    have h1 := q.hasDerivAt x
    have h2 : HasDerivAt hermW (Real.exp (-x ^ 2) * (-(2 * x))) x := by
      have h3 : HasDerivAt (fun x : ℝ => -x ^ 2) (-((2 : ℕ) * x ^ (2 - 1))) x := (hasDerivAt_pow 2 x).neg
      refine h3.exp.congr_deriv ?_
      norm_num
    refine (h1.mul h2).congr_deriv ?_
    simp only [hermW, eval_sub, eval_mul, eval_C, eval_X]; ring
  · have := integrable_hermite (derivative q - C 2 * (X * q))
    rwa [integrableOn_univ] at this
  · have := integrable_hermite q
    rwa [integrableOn_univ] at this

theorem hermite_orthogonal (m : ℕ) (hm : 1 ≤ m) : weightFunctional _ _ integrable_hermite (monicSeq hermA hermB m) = 0 := by
  obtain ⟨k, rfl⟩ : ∃ k, m = k + 1 := ⟨m - 1, by omega⟩
  rw [monicSeq_rec, ← hermite_derivative, hermA, C_0, sub_zero, map_sub, weightFunctional_apply, weightFunctional_apply,
    hermite_pearson, sub_self]

theorem hermite_mass : ∫ x in Set.univ, hermW x = Real.sqrt Real.pi := by
  rw [setIntegral_univ]
  have := integral_gaussian 1
  simpa [hermW] using this

/-! ### Laguerre -/

/-- recurrence coefficients of the Laguerre rule -/
noncomputable def lagA (α : ℝ) (k : ℕ) : ℝ := α + 1 + 2 * k
noncomputable def lagB (α : ℝ) (k : ℕ) : ℝ := Real.sqrt ((1 + k) * (1 + k + α))

theorem lagB_sq {α : ℝ} (hα : -1 < α) (k : ℕ) : lagB α k ^ 2 = (1 + k) * (1 + k + α) := by
  unfold lagB
  rw [Real.sq_sqrt]
  have : (0 : ℝ) ≤ k := Nat.cast_nonneg k
  exact mul_nonneg (by linarith) (by linarith)

theorem laguerre_derivative_eval {α : ℝ} (hα : -1 < α) (x : ℝ) : ∀ k : ℕ, x * (derivative (monicSeq (lagA α) (lagB α) k)).eval x =
    k * (monicSeq (lagA α) (lagB α) k).eval x + (prevTerm (lagA α) (lagB α) k).eval x
  | 0 => by simp [monicSeq, prevTerm]
  | 1 => by simp [monicSeq, prevTerm, lagB_sq hα, lagA, add_comm, -map_pow]
  | k + 2 => by
    have h1 := laguerre_derivative_eval hα x (k + 1)
    have h0 := laguerre_derivative_eval hα x k
    obtain ⟨hr, hd⟩ := monicSeq_rec_eval (lagA α) (lagB α) k x
    obtain ⟨hr1, -⟩ := monicSeq_rec_eval (lagA α) (lagB α) (k + 1) x
    have ea : lagA α (k + 1) = lagA α k + 2 := by simp only [lagA]; push_cast; ring
    have eb : lagB α (k + 1) ^ 2 = lagB α k ^ 2 + lagA α k + 2 := by
      rw [lagB_sq hα, lagB_sq hα, lagA]; push_cast; ring
    rw [hd]
    simp only [prevTerm, eval_mul, eval_C, ea, eb] at h1 h0 hr hr1 ⊢
    rw [hr1]
    push_cast at *
    linear_combination (x - (lagA α k + 2)) * h1 - lagB α k ^ 2 * h0 - lagB α k ^ 2 * hr

/-- the weight function of the Laguerre rule -/
noncomputable def lagW (α x : ℝ) : ℝ := x ^ α * Real.exp (-x)

theorem lag_monomial {α : ℝ} (hα : -1 < α) (k : ℕ) : IntegrableOn (fun x => x ^ k * lagW α x) (Set.Ioi 0) ∧
    ∫ x in Set.Ioi 0, x ^ k * lagW α x = Real.Gamma (k + α + 1) := by
  have hk : (0 : ℝ) ≤ k := Nat.cast_nonneg k
  have hpos : 0 < (k : ℝ) + α + 1 := by linarith
  have hc : ∀ x ∈ Set.Ioi (0 : ℝ), Real.exp (-x) * x ^ ((k : ℝ) + α + 1 - 1) = x ^ k * lagW α x := by
    intro x hx
    have hx : 0 < x := hx
    rw [add_sub_cancel_right, Real.rpow_add hx, Real.rpow_natCast, lagW]; ring
  constructor
  · exact (Real.GammaIntegral_convergent hpos).congr_fun hc measurableSet_Ioi
  · rw [Real.Gamma_eq_integral hpos]
    exact (setIntegral_congr_fun measurableSet_Ioi hc).symm

theorem integrable_laguerre {α : ℝ} (hα : -1 < α) (p : ℝ[X]) : IntegrableOn (fun x => p.eval x * lagW α x) (Set.Ioi 0) :=
  integrableOn_poly (fun k => (lag_monomial hα k).1) p

theorem posDef_laguerre {α : ℝ} (hα : -1 < α) : PosDef (Set.Ioi 0) (lagW α) :=
  posDef_of_pos isOpen_Ioi ⟨1, by simp⟩ (fun x hx => mul_pos (Real.rpow_pos_of_pos hx _) (Real.exp_pos _)) (integrable_laguerre hα)

theorem laguerre_moment {α : ℝ} (hα : -1 < α) (k : ℕ) :
    weightFunctional _ _ (integrable_laguerre hα) (X ^ k) = Real.Gamma (k + α + 1) := by
  rw [weightFunctional_apply, weightIntegral, ← (lag_monomial hα k).2]
  simp

theorem laguerre_pearson {α : ℝ} (hα : -1 < α) (q : ℝ[X]) :
    weightFunctional _ _ (integrable_laguerre hα) (X * derivative q + C (α + 1) * q - X * q) = 0 := by
  set Λ := weightFunctional _ _ (integrable_laguerre hα)
  induction q using Polynomial.induction_on' with
  | add p q hp hq =>
    have : X * derivative (p + q) + C (α + 1) * (p + q) - X * (p + q) =
      (X * derivative p + C (α + 1) * p - X * p) + (X * derivative q + C (α + 1) * q - X * q) := by
      rw [derivative_add]; ring
    rw [this, map_add, hp, hq, add_zero]
  | monomial k c =>
    have e : X * derivative (monomial k c) + C (α + 1) * monomial k c - X * monomial k c =
        (c * (k + α + 1)) • (X ^ k : ℝ[X]) - c • X ^ (k + 1) := by
      rw [← C_mul_X_pow_eq_monomial, derivative_C_mul_X_pow]
      refine Polynomial.funext fun x => ?_
      simp only [eval_sub, eval_add, eval_mul, eval_C, eval_X, eval_pow, eval_smul, smul_eq_mul]
      cases k with
      | zero => simp; ring
      | succ k => simp only [Nat.add_sub_cancel]; push_cast; ring
    rw [e, map_sub, map_smul, map_smul, laguerre_moment hα, laguerre_moment hα, smul_eq_mul, smul_eq_mul]
    have hk : (0 : ℝ) ≤ k := Nat.cast_nonneg k
    have := Real.Gamma_add_one (s := k + α + 1) (by linarith)
    push_cast
    rw [show (k : ℝ) + 1 + α + 1 = k + α + 1 + 1 by ring, this]; ring

theorem laguerre_orthogonal {α : ℝ} (hα : -1 < α) : ∀ m, 1 ≤ m →
    weightFunctional _ _ (integrable_laguerre hα) (monicSeq (lagA α) (lagB α) m) = 0 := by
  have key : ∀ k : ℕ, weightFunctional _ _ (integrable_laguerre hα) (monicSeq (lagA α) (lagB α) (k + 1)) =
      -k * weightFunctional _ _ (integrable_laguerre hα) (monicSeq (lagA α) (lagB α) k) := by
    intro k
    set Λ := weightFunctional _ _ (integrable_laguerre hα)
    have e : monicSeq (lagA α) (lagB α) (k + 1) = -(X * derivative (monicSeq (lagA α) (lagB α) k) +
        C (α + 1) * monicSeq (lagA α) (lagB α) k - X * monicSeq (lagA α) (lagB α) k) +
        (-k : ℝ) • monicSeq (lagA α) (lagB α) k := by
      refine Polynomial.funext fun x => ?_
      have h1 := laguerre_derivative_eval hα x k
      have h2 := (monicSeq_rec_eval (lagA α) (lagB α) k x).1
      simp only [eval_sub, eval_add, eval_mul, eval_C, eval_X, eval_smul, smul_eq_mul, eval_neg]
      rw [h2, h1, lagA]; ring
    rw [e, map_add, map_neg, laguerre_pearson hα, map_smul, smul_eq_mul]; ring
  intro m hm
  obtain ⟨k, rfl⟩ : ∃ k, m = k + 1 := ⟨m - 1, by omega⟩
  induction k with
  | zero => rw [key]; simp
  | succ k ih => rw [key, ih (by omega), mul_zero]

end GaussQuad
