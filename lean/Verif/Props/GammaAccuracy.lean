import Verif.Proofs.GammaAccuracy
import Verif.Props.GolubWelschMore

/-!
# C49: accuracy of the crate's gamma function, and what it means for the Laguerre and Jacobi rules

All statements are about exact arithmetic: the error is the one of the Lanczos formula with the tabulated coefficients.
-/

namespace GaussQuad.Props
open Polynomial Spec FloatOps Filter MeasureTheory

/-- `|r - 1|` from `|log r|` -/
theorem abs_sub_one_of_log {r ε : ℝ} (hr : 0 < r) (h : |Real.log r| ≤ ε) (hε : ε ≤ 1) : |r - 1| ≤ ε + ε ^ 2 := by
  have h1 := Real.abs_exp_sub_one_sub_id_le (h.trans hε)
  rw [Real.exp_log hr] at h1
  have h2 : Real.log r ^ 2 ≤ ε ^ 2 := by rw [← sq_abs]; exact pow_le_pow_left₀ (abs_nonneg _) h 2
  have h3 := abs_le.1 h1
  have h4 := abs_le.1 h
  rw [abs_le]; constructor <;> linarith

/-- C49: at every real number that is not a pole of `Γ` the crate's formula has relative error at most `2e-12`. -/
theorem C49_gamma_accurate {x : ℝ} (hpole : ∀ n : ℕ, x ≠ -n) : |gamma x / Real.Gamma x - 1| ≤ 2e-12 := by
  obtain ⟨h1, h2⟩ := GammaAcc.gamma_accurate hpole
  exact (abs_sub_one_of_log h1 h2 (by norm_num)).trans (by norm_num)

example : |gamma (5 / 2 : ℝ) / Real.Gamma (5 / 2) - 1| ≤ 2e-12 :=
  C49_gamma_accurate fun n h => by have : (0 : ℝ) ≤ n := Nat.cast_nonneg n; linarith

/-- on the range of the arguments the constructors use, in absolute form -/
theorem C49_gamma_accurate_abs {x : ℝ} (hx : 0 < x) : |(gamma x : ℝ) - Real.Gamma x| ≤ 2e-12 * Real.Gamma x := by
  have hG := Real.Gamma_pos_of_pos hx
  have h := C49_gamma_accurate (x := x) (fun n hn => by
    have : (0 : ℝ) ≤ n := Nat.cast_nonneg n
    linarith)
  have e : (gamma x : ℝ) - Real.Gamma x = (gamma x / Real.Gamma x - 1) * Real.Gamma x := by field_simp
  rw [e, abs_mul, abs_of_pos hG]
  exact mul_le_mul_of_nonneg_right h hG.le

example : |(gamma (7 : ℝ) : ℝ) - 720| ≤ 1.5e-9 := by
  have h := C49_gamma_accurate_abs (x := 7) (by norm_num)
  have e : Real.Gamma 7 = 720 := by
    have := Real.Gamma_nat_eq_factorial 6
    rw [show ((6 : ℕ) : ℝ) + 1 = 7 by norm_num] at this
    rw [this]; norm_num [Nat.factorial]
  rw [e] at h
  exact h.trans (by norm_num)

/-- The documented accuracy "16 floating point digits" (/repo/src/math.rs l.114-115) does not hold: already in exact arithmetic the
formula is off by more than `1e-13` (relative) at `x = 50`. -/
theorem C49_sixteen_digits_refuted : 1e-13 < |gamma (50 : ℝ) / Real.Gamma 50 - 1| := by
  have hG : Real.Gamma 50 = (Nat.factorial 49 : ℝ) := by
    have := Real.Gamma_nat_eq_factorial 49
    rw [show ((49 : ℕ) : ℝ) + 1 = 50 by norm_num] at this
    exact this
  have hf : (0 : ℝ) < (Nat.factorial 49 : ℝ) := by positivity
  have hg : 0 < (gamma (50 : ℝ) : ℝ) := gamma_right_pos (by norm_num)
  suffices h : (gamma (50 : ℝ) : ℝ) < (1 - 1e-13) * (Nat.factorial 49 : ℝ) by
    rw [hG, abs_sub_comm]
    have : (gamma (50 : ℝ) : ℝ) / (Nat.factorial 49 : ℝ) < 1 - 1e-13 := by rwa [div_lt_iff₀ hf]
    exact lt_of_lt_of_le (by linarith) (le_abs_self _)
  have h0 : (0 : ℝ) ≤ 60.400511 / Real.exp 1 := by positivity
  have hsq : (gamma (50 : ℝ) : ℝ) ^ 2 = (lanczosSum 50 * (twoSqrtEOverPi : ℝ)) ^ 2 * (60.400511 / Real.exp 1) ^ 99 := by
    rw [gamma_right (by norm_num), show (50 : ℝ) - 1 / 2 + (gammaR : ℝ) = 60.400511 by norm_num [gammaR], mul_pow,
      ← Real.rpow_natCast ((60.400511 / Real.exp 1) ^ ((50 : ℝ) - 1 / 2)), ← Real.rpow_mul h0, ← Real.rpow_natCast (60.400511 / Real.exp 1) 99]
    norm_num
  have he : (363916618873 / 133877442384 - 1 / 10 ^ 20 : ℝ) ≤ Real.exp 1 := by linarith [(abs_le.1 Real.exp_one_near_20).1]
  have hq : (60.400511 / Real.exp 1) ^ 99 ≤ (60.400511 / (363916618873 / 133877442384 - 1 / 10 ^ 20 : ℝ)) ^ 99 :=
    pow_le_pow_left₀ h0 (div_le_div_of_nonneg_left (by norm_num) (by norm_num) he) 99
  refine lt_of_pow_lt_pow_left₀ 2 (by norm_num [Nat.factorial]) ?_
  rw [hsq]
  refine lt_of_le_of_lt (mul_le_mul_of_nonneg_left hq (by positivity)) ?_
  norm_num [lanczosSum, twoSqrtEOverPi, Nat.factorial]

/-- the gamma factor of the Jacobi rules is 1 up to `6e-12` -/
theorem C49_jacobi_factor {α β : ℝ} (hα : -1 < α) (hβ : -1 < β) (hs : α + β ≠ -1) : |jacobiFactor α β - 1| ≤ 6e-12 := by
  have np : ∀ x : ℝ, 0 < x → ∀ n : ℕ, x ≠ -n := fun x hx n hn => by
    have : (0 : ℝ) ≤ n := Nat.cast_nonneg n
    linarith
  obtain ⟨a1, a2⟩ := GammaAcc.gamma_accurate (np (α + 1) (by linarith))
  obtain ⟨b1, b2⟩ := GammaAcc.gamma_accurate (np (β + 1) (by linarith))
  have hz : ∀ n : ℕ, α + β + 1 ≠ -n := by
    intro n hn
    rcases n with _ | n
    · rw [Nat.cast_zero] at hn; apply hs; linarith
    · have : (0 : ℝ) ≤ n := Nat.cast_nonneg n
      push_cast at hn
      linarith
  obtain ⟨c1, c2⟩ := GammaAcc.gamma_accurate hz
  have hne : α + β + 1 ≠ 0 := fun h => hs (by linarith)
  have e : jacobiFactor α β = gamma (α + 1) / Real.Gamma (α + 1) * (gamma (β + 1) / Real.Gamma (β + 1)) /
      (gamma (α + β + 1) / Real.Gamma (α + β + 1)) := by
    unfold jacobiFactor
    have h2 : Real.Gamma (α + β + 2) = (α + β + 1) * Real.Gamma (α + β + 1) := by
      rw [← Real.Gamma_add_one hne]; congr 1; ring
    rw [h2, mul_div_mul_left _ _ hne]
  have hlog : |Real.log (jacobiFactor α β)| ≤ 5.16e-12 := by
    rw [e, Real.log_div (mul_pos a1 b1).ne' c1.ne', Real.log_mul a1.ne' b1.ne']
    rw [abs_le] at *
    constructor <;> linarith [a2.1, a2.2, b2.1, b2.2, c2.1, c2.2]
  exact (abs_sub_one_of_log (jacobiFactor_pos hα hβ hs) hlog (by norm_num)).trans (by norm_num)

example : |jacobiFactor (3 / 2) (-1 / 3) - 1| ≤ 6e-12 := C49_jacobi_factor (by norm_num) (by norm_num) (by norm_num)

/-- C33 against the true integral: the Laguerre rule integrates every polynomial of degree at most `2n-1` with relative error at most
`2e-12` in exact arithmetic. -/
theorem C33_true_integral {ext : Externals ℝ} (hext : ExactSolver ext) {n : ℕ} (hn : 0 < n) {α : FiniteAboveNegOne ℝ}
    (hα : -1 < α.get) (a b : ℝ) :
    ∃ r : LaguerreRule ℝ, GaussLaguerre.new ext n α = some r ∧ ∀ p : ℝ[X], p.natDegree ≤ 2 * n - 1 →
      |(AnyRule.laguerre r).value a b (fun x => p.eval x) - ∫ x in Set.Ioi (0 : ℝ), p.eval x * (x ^ α.get * Real.exp (-x))| ≤
        2e-12 * |∫ x in Set.Ioi (0 : ℝ), p.eval x * (x ^ α.get * Real.exp (-x))| := by
  obtain ⟨r, h1, h2⟩ := C33_exact hext hn hα a b
  refine ⟨r, h1, fun p hp => ?_⟩
  rw [h2 p hp, ← sub_one_mul, abs_mul]
  refine mul_le_mul_of_nonneg_right (C49_gamma_accurate fun n hn => ?_) (abs_nonneg _)
  have : (0 : ℝ) ≤ n := Nat.cast_nonneg n
  linarith

example : ∃ ext : Externals ℝ, ExactSolver ext ∧ ∃ r : LaguerreRule ℝ, GaussLaguerre.new ext 2 ⟨-1 / 2⟩ = some r ∧
    |(AnyRule.laguerre r).value 0 0 (fun x => (X ^ 3 : ℝ[X]).eval x) - ∫ x in Set.Ioi (0 : ℝ), (X ^ 3 : ℝ[X]).eval x * (x ^ (-1 / 2 : ℝ) * Real.exp (-x))| ≤
      2e-12 * |∫ x in Set.Ioi (0 : ℝ), (X ^ 3 : ℝ[X]).eval x * (x ^ (-1 / 2 : ℝ) * Real.exp (-x))| := by
  refine ⟨_, exactSolver_exists, ?_⟩
  obtain ⟨r, h1, h2⟩ := C33_true_integral exactSolver_exists (n := 2) (by norm_num) (α := ⟨-1 / 2⟩) (by norm_num) 0 0
  exact ⟨r, h1, h2 (X ^ 3) (by simp)⟩

/-- C34 against the true integral at even degrees: relative error at most `6e-12`, on every interval. -/
theorem C34_true_integral {ext : Externals ℝ} (hext : ExactSolver ext) (mode : Overflow) {n : ℕ} (hn : 0 < n) (heven : n % 2 = 0)
    {α β : FiniteAboveNegOne ℝ} (hα : -1 < α.get) (hβ : -1 < β.get) (hs : α.get + β.get ≠ -1) (hd : ¬ Delegated α.get β.get) :
    ∃ r, GaussJacobi.new mode ext n α β = some r ∧ ∀ p : ℝ[X], p.natDegree ≤ 2 * n - 1 → ∀ a b : ℝ, a ≠ b →
      ∃ I : ℝ, I = ∫ t in a..b, p.eval t * ((1 - (2 * t - a - b) / (b - a)) ^ α.get * (1 + (2 * t - a - b) / (b - a)) ^ β.get) ∧
      |(AnyRule.jacobi r).value a b (fun x => p.eval x) - I| ≤ 6e-12 * |I| := by
  obtain ⟨r, h1, h2⟩ := C34_even hext mode hn heven hα hβ hs hd
  refine ⟨r, h1, fun p hp a b hab => ⟨_, rfl, ?_⟩⟩
  rw [h2 p hp a b hab, ← sub_one_mul, abs_mul]
  exact mul_le_mul_of_nonneg_right (C49_jacobi_factor hα hβ hs) (abs_nonneg _)

example : ∃ ext : Externals ℝ, ExactSolver ext ∧ ∃ r : JacobiRule ℝ, GaussJacobi.new .checked ext 4 ⟨1⟩ ⟨0⟩ = some r ∧ ∃ I : ℝ,
    |(AnyRule.jacobi r).value (-1) 1 (fun x => (X ^ 7 : ℝ[X]).eval x) - I| ≤ 6e-12 * |I| := by
  refine ⟨_, exactSolver_exists, ?_⟩
  obtain ⟨r, h1, h2⟩ := C34_true_integral exactSolver_exists .checked (n := 4) (by norm_num) (by norm_num) (α := ⟨1⟩) (β := ⟨0⟩)
    (by norm_num) (by norm_num) (by norm_num) (by unfold Delegated; norm_num)
  obtain ⟨I, -, h3⟩ := h2 (X ^ 7) (by simp) (-1) 1 (by norm_num)
  exact ⟨r, h1, I, h3⟩

/-- C43 against the true masses: `Γ(α+1)` and the Beta integral, relative error at most `2e-12` and `6e-12`. -/
theorem C43_true_mass {ext : Externals ℝ} (hext : ExactSolver ext) {n : ℕ} (hn : 0 < n) :
    (∀ α : FiniteAboveNegOne ℝ, -1 < α.get → ∃ r, GaussLaguerre.new ext n α = some r ∧
      |(r.asNodeWeightPairs.map (·.2)).sum - Real.Gamma (α.get + 1)| ≤ 2e-12 * Real.Gamma (α.get + 1)) ∧
    (∀ α β : FiniteAboveNegOne ℝ, -1 < α.get → -1 < β.get → α.get + β.get ≠ -1 → ∃ r, GaussJacobi.newGeneral ext n α β = some r ∧
      |(r.asNodeWeightPairs.map (·.2)).sum - ∫ x in (-1 : ℝ)..1, (1 - x) ^ α.get * (1 + x) ^ β.get| ≤
        6e-12 * |∫ x in (-1 : ℝ)..1, (1 - x) ^ α.get * (1 + x) ^ β.get|) := by
  obtain ⟨-, h2, h3⟩ := C43_golub_welsch hext hn
  refine ⟨fun α hα => ?_, fun α β hα hβ hs => ?_⟩
  · obtain ⟨r, h, e⟩ := h2 α hα
    exact ⟨r, h, by rw [e]; exact C49_gamma_accurate_abs (by linarith)⟩
  · obtain ⟨r, h, e⟩ := h3 α β hα hβ hs
    refine ⟨r, h, ?_⟩
    rw [e, ← sub_one_mul, abs_mul]
    exact mul_le_mul_of_nonneg_right (C49_jacobi_factor hα hβ hs) (abs_nonneg _)

example : ∃ ext : Externals ℝ, ExactSolver ext ∧ ∃ r, GaussLaguerre.new ext 5 ⟨3⟩ = some r ∧
    |(r.asNodeWeightPairs.map (·.2)).sum - Real.Gamma (3 + 1)| ≤ 2e-12 * Real.Gamma (3 + 1) :=
  ⟨_, exactSolver_exists, (C43_true_mass exactSolver_exists (n := 5) (by norm_num)).1 ⟨3⟩ (by norm_num)⟩

end GaussQuad.Props
