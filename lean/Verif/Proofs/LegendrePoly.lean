import Verif.Spec.Legendre
import Mathlib.Algebra.Polynomial.Derivative
import Mathlib.Algebra.Polynomial.Degree.Lemmas
import Mathlib.Analysis.Calculus.MeanValue
import Mathlib.Analysis.Calculus.Deriv.Polynomial
import Mathlib.Topology.Algebra.Polynomial
import Mathlib.Tactic.LinearCombination
import Mathlib.Tactic.FieldSimp
import Mathlib.Tactic.Positivity

/-!
# Pointwise facts about Legendre polynomials
-/

namespace GaussQuad.LegendrePoly
open Polynomial Spec

/-- value of `P_n` at `x` -/
noncomputable def P (n : ℕ) (x : ℝ) : ℝ := (legendreP n).eval x

/-- value of the derivative of `P_n` at `x` -/
noncomputable def P' (n : ℕ) (x : ℝ) : ℝ := (derivative (legendreP n)).eval x

variable (n : ℕ) (x : ℝ)

@[simp] theorem P_zero : P 0 x = 1 := by simp [P, legendreP]
@[simp] theorem P_one : P 1 x = x := by simp [P, legendreP]

theorem P_rec : (n + 2) * P (n + 2) x = (2 * n + 3) * x * P (n + 1) x - (n + 1) * P n x := by
  have : (n : ℝ) + 2 ≠ 0 := by positivity
  simp only [P, legendreP, eval_sub, eval_mul, eval_C, eval_X]
  field_simp

theorem P'_rec : (n + 2) * P' (n + 2) x = (2 * n + 3) * (P (n + 1) x + x * P' (n + 1) x) - (n + 1) * P' n x := by
  have : (n : ℝ) + 2 ≠ 0 := by positivity
  simp only [P, P', legendreP, derivative_sub, derivative_mul, derivative_C, derivative_X, eval_sub, eval_add, eval_mul, eval_C, eval_X,
    eval_zero, zero_mul, zero_add, mul_one]
  field_simp

theorem hasDerivAt : HasDerivAt (P n) (P' n x) x := (legendreP n).hasDerivAt x

theorem continuous : Continuous (P n) := (legendreP n).continuous

/-- both differential-difference relations at once -/
theorem deriv_rel : (1 - x ^ 2) * P' (n + 1) x = (n + 1) * (P n x - x * P (n + 1) x) ∧
    (1 - x ^ 2) * P' n x = (n + 1) * (x * P n x - P (n + 1) x) := by
  induction n with
  | zero => simp [P', legendreP]; ring
  | succ n ih =>
    obtain ⟨h1, h2⟩ := ih
    have r1 := P_rec n x
    have r2 := P'_rec n x
    have hn : (n : ℝ) + 2 ≠ 0 := by positivity
    push_cast
    constructor
    · apply mul_left_cancel₀ hn
      linear_combination (1 - x ^ 2) * r2 + (2 * n + 3) * x * h1 - (n + 1) * h2 + (n + 2) * x * r1
    · linear_combination h1 + r1

/-- the energy `P_{n+1}² + P_n² - 2 x P_{n+1} P_n` -/
noncomputable def E (n : ℕ) (x : ℝ) : ℝ := P (n + 1) x ^ 2 + P n x ^ 2 - 2 * x * P (n + 1) x * P n x

theorem E_rec : (n + 2) ^ 2 * E (n + 1) x = (n + 1) ^ 2 * E n x + (2 * n + 3) * (1 - x ^ 2) * P (n + 1) x ^ 2 := by
  have r1 := P_rec n x
  have hn : (n : ℝ) + 2 ≠ 0 := by positivity
  have e : P (n + 2) x = ((2 * n + 3) * x * P (n + 1) x - (n + 1) * P n x) / (n + 2) := by
    rw [eq_div_iff hn]; linear_combination r1
  unfold E
  rw [show n + 1 + 1 = n + 2 from rfl, e]
  field_simp
  ring

/-- Christoffel-Darboux on the diagonal -/
theorem christoffel : (1 - x ^ 2) * ∑ k ∈ Finset.range (n + 1), (2 * k + 1) * P k x ^ 2 = (n + 1) ^ 2 * E n x := by
  induction n with
  | zero => simp [E]; ring
  | succ n ih =>
    rw [Finset.sum_range_succ, mul_add, ih]
    push_cast
    have := E_rec n x
    linear_combination -this

variable {x}

theorem E_nonneg (hx : x ^ 2 ≤ 1) : 0 ≤ E n x := by
  have : E n x = (P (n + 1) x - x * P n x) ^ 2 + (1 - x ^ 2) * P n x ^ 2 := by unfold E; ring
  rw [this]
  have := mul_nonneg (sub_nonneg.2 hx) (sq_nonneg (P n x))
  positivity

theorem E_le (hx : x ^ 2 ≤ 1) : E n x ≤ 1 - x ^ 2 := by
  induction n with
  | zero => simp [E]; nlinarith
  | succ n ih =>
    have h1 : E (n + 1) x = ((n + 1) / (n + 2)) ^ 2 * (x * P (n + 1) x - P n x) ^ 2 + (1 - x ^ 2) * P (n + 1) x ^ 2 := by
      have hn : (n : ℝ) + 2 ≠ 0 := by positivity
      have e : P (n + 2) x = ((2 * n + 3) * x * P (n + 1) x - (n + 1) * P n x) / (n + 2) := by
        rw [eq_div_iff hn]; linear_combination P_rec n x
      unfold E
      rw [show n + 1 + 1 = n + 2 from rfl, e]
      field_simp
      ring
    have h2 : E n x = (x * P (n + 1) x - P n x) ^ 2 + (1 - x ^ 2) * P (n + 1) x ^ 2 := by unfold E; ring
    have h3 : ((n + 1 : ℝ) / (n + 2)) ^ 2 ≤ 1 := by
      apply pow_le_one₀ (by positivity)
      rw [div_le_one (by positivity)]; linarith
    have := mul_le_mul_of_nonneg_right h3 (sq_nonneg (x * P (n + 1) x - P n x))
    linarith

/-- `|P_n| ≤ 1` inside the interval -/
theorem abs_P_le (hx : x ^ 2 < 1) : |P n x| ≤ 1 := by
  have h1 : (1 - x ^ 2) * P n x ^ 2 ≤ 1 - x ^ 2 := by
    refine le_trans ?_ (E_le n hx.le)
    have : E n x = (P (n + 1) x - x * P n x) ^ 2 + (1 - x ^ 2) * P n x ^ 2 := by unfold E; ring
    rw [this]
    linarith [sq_nonneg (P (n + 1) x - x * P n x)]
  have h2 : P n x ^ 2 ≤ 1 := by
    have h0 : 0 < 1 - x ^ 2 := by linarith
    by_contra hc
    push Not at hc
    nlinarith
  rw [← sq_abs] at h2
  exact le_of_sq_le_sq₀ h2
where
  le_of_sq_le_sq₀ {a : ℝ} (h : |a| ^ 2 ≤ 1) : |a| ≤ 1 := by nlinarith [abs_nonneg a]

/-- derivative of the energy -/
theorem E_hasDerivAt (hx : x ^ 2 < 1) : HasDerivAt (E n) (-2 * P (n + 1) x * P n x) x := by
  have h1 := hasDerivAt (n + 1) x
  have h0 := hasDerivAt n x
  have hd := ((h1.pow 2).add (h0.pow 2)).sub ((((hasDerivAt_id x).const_mul 2).mul h1).mul h0)
  refine hd.congr_deriv ?_
  obtain ⟨r1, r2⟩ := deriv_rel n x
  have hne : (1 - x ^ 2) ≠ 0 := by linarith
  apply mul_left_cancel₀ hne
  simp only [id, Nat.cast_ofNat, Pi.mul_apply]
  linear_combination (2 * P (n + 1) x - 2 * x * P n x) * r1 + (2 * P n x - 2 * x * P (n + 1) x) * r2

theorem E_lipschitz {x y : ℝ} (hx : x ∈ Set.Ioo (-1 : ℝ) 1) (hy : y ∈ Set.Ioo (-1 : ℝ) 1) : |E n x - E n y| ≤ 2 * |x - y| := by
  have hsq : ∀ z ∈ Set.Ioo (-1 : ℝ) 1, z ^ 2 < 1 := fun z hz => by nlinarith [hz.1, hz.2]
  have := Convex.norm_image_sub_le_of_norm_hasDerivWithin_le (f := E n) (f' := fun z => -2 * P (n + 1) z * P n z) (C := 2)
    (fun z hz => (E_hasDerivAt n (hsq z hz)).hasDerivWithinAt) (fun z hz => by
      have h1 := abs_P_le (n + 1) (hsq z hz)
      have h0 := abs_P_le n (hsq z hz)
      rw [Real.norm_eq_abs, abs_mul, abs_mul]
      have := mul_le_one₀ h1 (abs_nonneg _) h0
      norm_num
      linarith) (convex_Ioo (-1) 1) hy hx
  simpa [Real.norm_eq_abs] using this

/-- parity -/
theorem P_neg (n : ℕ) (x : ℝ) : P n (-x) = (-1) ^ n * P n x ∧ P (n + 1) (-x) = (-1) ^ (n + 1) * P (n + 1) x := by
  induction n with
  | zero => simp
  | succ n ih =>
    refine ⟨ih.2, ?_⟩
    have hn : (n : ℝ) + 2 ≠ 0 := by positivity
    apply mul_left_cancel₀ hn
    have r1 := P_rec n x
    have r2 := P_rec n (-x)
    rw [ih.1, ih.2] at r2
    rw [show n + 1 + 1 = n + 2 from rfl]
    rw [r2, pow_succ, pow_succ]
    rw [pow_succ] at *
    linear_combination -(-1) ^ n * r1

end GaussQuad.LegendrePoly
