import Verif.Proofs.F64Gamma
import Verif.Proofs.TrigExists
import Verif.Props.GammaAccuracy

/-!
# C59: the gamma function in binary64

`gamma` (`/repo/src/math.rs` l.118-136) run with IEEE binary64 arithmetic, the cancellation in its alternating Lanczos series and the rounding of base and
exponent of `powf` included.
-/

namespace GaussQuad.Props
open Spec F64

variable [L : Libm]

/-- from the rounding error to the error against the gamma function -/
theorem gamma_close {x : F64} (hr : Rel (gamma x) (gamma x.rv) 82000) (hpole : ∀ n : ℕ, x.rv ≠ -n) :
    (gamma x).isFinite = true ∧ |((gamma x).val : ℝ) - Real.Gamma x.val| ≤ 1.2e-11 * |Real.Gamma x.val| := by
  have hne : Real.Gamma x.rv ≠ 0 := Real.Gamma_ne_zero hpole
  have hG := abs_pos.2 hne
  have h3 : |gamma x.rv - Real.Gamma x.rv| ≤ 2e-12 * |Real.Gamma x.rv| := by
    have := C49_gamma_accurate hpole
    rwa [div_sub_one hne, abs_div, div_le_iff₀ hG] at this
  refine ⟨hr.1, ?_⟩
  have h4 := hr.2
  change |(gamma x).rv - Real.Gamma x.rv| ≤ 1.2e-11 * |Real.Gamma x.rv|
  have h5 : |(gamma x.rv : ℝ)| ≤ 1.001 * |Real.Gamma x.rv| := by
    have := abs_sub_abs_le_abs_sub (gamma x.rv) (Real.Gamma x.rv)
    linarith
  have h6 : 82000 * U * |(gamma x.rv : ℝ)| ≤ 82000 * U * (1.001 * |Real.Gamma x.rv|) :=
    mul_le_mul_of_nonneg_left h5 (by have := U_pos; linarith)
  have h7 : 82000 * U * (1.001 * |Real.Gamma x.rv|) ≤ 9.2e-12 * |Real.Gamma x.rv| := by
    have : 82000 * U * 1.001 ≤ 9.2e-12 := by unfold U; norm_num
    calc 82000 * U * (1.001 * |Real.Gamma x.rv|) = 82000 * U * 1.001 * |Real.Gamma x.rv| := by ring
      _ ≤ _ := mul_le_mul_of_nonneg_right this hG.le
  have h8 := abs_sub_le (gamma x).rv (gamma x.rv) (Real.Gamma x.rv)
  linarith

/-- C59: for every finite argument in `[2^-100, 169]` the computed value is finite and has relative error at most `1.2e-11`, given a backend whose
`sin` and `pow` are accurate to `2^-52`. -/
theorem C59_gamma (hL : AccurateTrig L) (hP : AccuratePow L) {x : F64} (hx : x.isFinite = true) (h1 : 1 / 2 ^ 100 ≤ (x.val : ℝ))
    (h2 : (x.val : ℝ) ≤ 169) :
    (gamma x).isFinite = true ∧ |((gamma x).val : ℝ) - Real.Gamma x.val| ≤ 1.2e-11 * Real.Gamma x.val := by
  have hp : (0 : ℝ) < x.val := lt_of_lt_of_le (by positivity) h1
  have hr : Rel (gamma x) (gamma x.rv) 82000 := by
    by_cases h : x.rv < 1 / 2
    · exact gamma_left_rel hL hP hx h1 h
    · exact gamma_right_rel hP hx (not_lt.1 h) h2
  have hG := Real.Gamma_pos_of_pos hp
  have h := gamma_close hr fun n h => by
    have : (0 : ℝ) ≤ n := Nat.cast_nonneg n
    change x.rv = -n at h
    change 0 < x.rv at hp
    linarith
  rwa [abs_of_pos hG] at h

/-- C59: for every finite argument in `[-1 + 1/1100, -1/1100]` the computed value is finite and has relative error at most `1.2e-11`, given a backend
whose `sin` is accurate to `2^-52` at negative arguments as well. -/
theorem C59_gamma_neg (hL : AccurateSinNeg L) (hP : AccuratePow L) {x : F64} (hx : x.isFinite = true) (h1 : -1 + 1 / 1100 ≤ (x.val : ℝ))
    (h2 : (x.val : ℝ) ≤ -1 / 1100) :
    (gamma x).isFinite = true ∧ |((gamma x).val : ℝ) - Real.Gamma x.val| ≤ 1.2e-11 * |Real.Gamma x.val| := by
  refine gamma_close (gamma_neg_rel hL hP hx h1 h2) fun n h => ?_
  change -1 + 1 / 1100 ≤ x.rv at h1
  change x.rv ≤ -1 / 1100 at h2
  rw [h] at h1 h2
  rcases Nat.eq_zero_or_pos n with rfl | hn
  · norm_num at h2
  · have : (1 : ℝ) ≤ n := by exact_mod_cast hn
    linarith

/-- the computed gamma function is positive on that range -/
theorem C59_gamma_pos (hL : AccurateTrig L) (hP : AccuratePow L) {x : F64} (hx : x.isFinite = true) (h1 : 1 / 2 ^ 100 ≤ (x.val : ℝ))
    (h2 : (x.val : ℝ) ≤ 169) : 0 < (gamma x).val := by
  have hp : (0 : ℝ) < x.val := lt_of_lt_of_le (by positivity) h1
  have h := (C59_gamma hL hP hx h1 h2).2
  have hG := Real.Gamma_pos_of_pos hp
  have h3 := (abs_le.1 h).1
  have : (0 : ℝ) < (gamma x).val := by linarith
  exact_mod_cast this

/-- with a suitable backend `gamma(100.0)` is within `1.2e-11` of `99!` -/
example : ∃ _L : Libm, ∃ x : F64, x.isFinite = true ∧ x.val = 100 ∧
    |((gamma x).val : ℝ) - (Nat.factorial 99 : ℝ)| ≤ 1.2e-11 * (Nat.factorial 99 : ℝ) := by
  obtain ⟨L, hL, -, hP, -⟩ := accurateLibm_exists
  have hf : (round 100 false).isFinite = true ∧ (round 100 false).val = 100 := by decide +kernel
  refine ⟨L, round 100 false, hf.1, hf.2, ?_⟩
  have e : (((round 100 false).val : ℚ) : ℝ) = (99 : ℕ) + 1 := by rw [hf.2]; norm_num
  have h := (C59_gamma hL hP hf.1 (by rw [e]; norm_num) (by rw [e]; norm_num)).2
  rwa [e, Real.Gamma_nat_eq_factorial] at h

/-- with a suitable backend `gamma(-0.5)` is within `1.2e-11` of `-2 √π` -/
example : ∃ _L : Libm, ∃ x : F64, x.isFinite = true ∧ x.val = -1 / 2 ∧
    |((gamma x).val : ℝ) - -(2 * Real.sqrt Real.pi)| ≤ 1.2e-11 * (2 * Real.sqrt Real.pi) := by
  obtain ⟨L, hL, -, -, hP, -⟩ := accurateLibm_exists'
  have hf : (round (-1 / 2) false).isFinite = true ∧ (round (-1 / 2) false).val = -1 / 2 := by decide +kernel
  refine ⟨L, round (-1 / 2) false, hf.1, hf.2, ?_⟩
  have e : (((round (-1 / 2) false).val : ℚ) : ℝ) = -1 / 2 := by rw [hf.2]; norm_num
  have h := (C59_gamma_neg hL hP hf.1 (by rw [e]; norm_num) (by rw [e]; norm_num)).2
  have hG : Real.Gamma (-1 / 2) = -(2 * Real.sqrt Real.pi) := by
    have := Real.Gamma_add_one (s := -1 / 2) (by norm_num)
    rw [show (-1 / 2 + 1 : ℝ) = 1 / 2 by norm_num, Real.Gamma_one_half_eq] at this
    linarith
  rwa [e, hG, abs_neg, abs_of_pos (show 0 < 2 * Real.sqrt Real.pi by positivity)] at h

/-- `gamma` of the float 100 is positive -/
example : ∃ _L : Libm, 0 < (gamma (F64.round 100 false)).val := by
  obtain ⟨L, hL, -, hP, -⟩ := accurateLibm_exists
  have e : ((F64.round 100 false).val : ℝ) = 100 := by
    have h : (F64.round 100 false).val = 100 := by decide +kernel
    rw [h]; norm_num
  exact ⟨L, C59_gamma_pos hL hP (by decide +kernel) (by rw [e]; norm_num) (by rw [e]; norm_num)⟩

end GaussQuad.Props
