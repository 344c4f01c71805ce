import Verif.Model.Math
import Verif.Model.RealOps
import Verif.Proofs.RealRule
import Mathlib.Analysis.SpecialFunctions.Trigonometric.Basic
import Mathlib.Analysis.SpecialFunctions.Pow.Real
import Mathlib.Tactic.FieldSimp
import Mathlib.Tactic.Ring
import Mathlib.Tactic.NormNum
import Mathlib.Tactic.Positivity
import Mathlib.Tactic.Linarith

/-! Facts about the crate's gamma function in exact arithmetic. -/

namespace GaussQuad
open FloatOps

/-- the rational part of the Lanczos approximation -/
noncomputable def lanczosSum (y : ℝ) : ℝ :=
  (4971481782775071 / 200000000000000000000) + (10514237858172197 / 10000000000000000) / y + (-276549677777613 / 80000000000000) / (y + 1) + (1128069273667237 / 250000000000000) / (y + 2) + (-932141329136177 / 312500000000000) / (y + 3) + (1056397115771267 / 1000000000000000) / (y + 4) + (-19542877319164587 / 100000000000000000) / (y + 5) + (427426358511103 / 25000000000000000) / (y + 6) + (-5719261174043057 / 10000000000000000000) / (y + 7) + (4633994733599057 / 1000000000000000000000) / (y + 8) + (-6799872712215193 / 2500000000000000000000000) / (y + 9)

/-- its numerator over the common denominator -/
noncomputable def lanczosNum (y : ℝ) : ℝ :=
  (5961572865583635699 / 15625000000000) + (2855510567939506975872135057 / 7812500000000000000000) * y ^ 1 + (12309999960437575530533137509 / 78125000000000000000000) * y ^ 2 + (25158647113391389401191193017 / 625000000000000000000000) * y ^ 3 + (527247462963632250559000209 / 78125000000000000000000) * y ^ 4 + (1939694851363858981329602343 / 2500000000000000000000000) * y ^ 5 + (38715805571386036891984263 / 625000000000000000000000) * y ^ 6 + (4239207805018725991087311 / 1250000000000000000000000) * y ^ 7 + (38077521988883947331319 / 312500000000000000000000) * y ^ 8 + (6485851272021623614807 / 2500000000000000000000000) * y ^ 9 + (4971481782775071 / 200000000000000000000) * y ^ 10

theorem lanczosSum_eq {y : ℝ} (hy : 0 < y) : lanczosSum y = lanczosNum y /
    (y * (y + 1) * (y + 2) * (y + 3) * (y + 4) * (y + 5) * (y + 6) * (y + 7) * (y + 8) * (y + 9)) := by
  have h0 : y ≠ 0 := hy.ne'
  have h1 : y + 1 ≠ 0 := by linarith
  have h2 : y + 2 ≠ 0 := by linarith
  have h3 : y + 3 ≠ 0 := by linarith
  have h4 : y + 4 ≠ 0 := by linarith
  have h5 : y + 5 ≠ 0 := by linarith
  have h6 : y + 6 ≠ 0 := by linarith
  have h7 : y + 7 ≠ 0 := by linarith
  have h8 : y + 8 ≠ 0 := by linarith
  have h9 : y + 9 ≠ 0 := by linarith
  rw [eq_div_iff (by positivity)]
  unfold lanczosSum lanczosNum
  field_simp
  ring

theorem lanczosNum_pos {y : ℝ} (hy : 0 < y) : 0 < lanczosNum y := by
  unfold lanczosNum; positivity

theorem lanczosSum_pos {y : ℝ} (hy : 0 < y) : 0 < lanczosSum y := by
  rw [lanczosSum_eq hy]
  exact div_pos (lanczosNum_pos hy) (by positivity)

theorem gammaSeries_right (x : ℝ) : gammaSeries (fun i => x +ᶠ ofNat i -ᶠ lit 1.0) = lanczosSum x := by
  simp only [gammaSeries, gammaDK, List.zipIdx, List.drop, List.foldl, List.headD, real_add, real_sub, real_div, real_lit, real_ofNat, lanczosSum]
  norm_num
  simp only [add_sub_assoc]
  norm_num

theorem gammaSeries_left (x : ℝ) : gammaSeries (fun i => ofNat i -ᶠ x) = lanczosSum (1 - x) := by
  simp only [gammaSeries, gammaDK, List.zipIdx, List.drop, List.foldl, List.headD, real_add, real_sub, real_div, real_lit, real_ofNat, lanczosSum]
  norm_num
  simp only [sub_add_eq_add_sub]
  norm_num

/-- the branch `x ≥ 1/2` -/
theorem gamma_right {x : ℝ} (hx : 1 / 2 ≤ x) :
    gamma x = lanczosSum x * (twoSqrtEOverPi : ℝ) * ((x - 1 / 2 + (gammaR : ℝ)) / Real.exp 1) ^ (x - 1 / 2) := by
  unfold gamma
  rw [real_lt, real_lit_half, if_neg (by simpa using hx), gammaSeries_right]
  simp only [real_mul, real_pow, real_div, real_add, real_sub, real_e, real_lit]

/-- the branch `x < 1/2` is the reflection formula applied to the other branch -/
theorem gamma_left {x : ℝ} (hx : x < 1 / 2) : gamma x = Real.pi / (Real.sin (Real.pi * x) * gamma (1 - x)) := by
  rw [gamma_right (x := 1 - x) (by linarith)]
  unfold gamma
  rw [real_lt, real_lit_half, if_pos (by simpa using hx), gammaSeries_left]
  simp only [real_mul, real_pow, real_div, real_add, real_sub, real_e, real_lit, real_pi, real_sin]
  rw [show 1 - x - 1 / 2 = 1 / 2 - x by ring]
  congr 1; ring

theorem gammaConst_pos : (0 : ℝ) < (twoSqrtEOverPi : ℝ) ∧ (0 : ℝ) < (gammaR : ℝ) := by
  norm_num [twoSqrtEOverPi, gammaR]

theorem gamma_right_pos {x : ℝ} (hx : 1 / 2 ≤ x) : 0 < gamma x := by
  rw [gamma_right hx]
  obtain ⟨h1, h2⟩ := gammaConst_pos
  refine mul_pos (mul_pos (lanczosSum_pos (by linarith)) h1) (Real.rpow_pos_of_pos (div_pos ?_ (Real.exp_pos 1)) _)
  linarith

theorem gamma_pos {x : ℝ} (hx : 0 < x) : 0 < gamma x := by
  rcases le_or_gt (1 / 2) x with h | h
  · exact gamma_right_pos h
  · rw [gamma_left h]
    refine div_pos Real.pi_pos (mul_pos (Real.sin_pos_of_pos_of_lt_pi ?_ ?_) (gamma_right_pos (by linarith)))
    · have := Real.pi_pos; positivity
    · nlinarith [Real.pi_pos]

theorem gamma_neg {x : ℝ} (hx1 : -1 < x) (hx : x < 0) : gamma x < 0 := by
  rw [gamma_left (by linarith)]
  refine div_neg_of_pos_of_neg Real.pi_pos (mul_neg_of_neg_of_pos ?_ (gamma_right_pos (by linarith)))
  apply Real.sin_neg_of_neg_of_neg_pi_lt <;> nlinarith [Real.pi_pos]

end GaussQuad
