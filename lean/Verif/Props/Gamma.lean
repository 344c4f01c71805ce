import Verif.Proofs.Gamma

/-!
# C40: the crate's gamma function in exact arithmetic
-/

namespace GaussQuad.Props
open FloatOps

/-- C40: sign of `gamma` on the whole range the constructors use: positive on `(0, ∞)` and negative on `(-1, 0)`, like `Γ`. -/
theorem C40_sign (x : ℝ) : (0 < x → 0 < (gamma x : ℝ)) ∧ (-1 < x → x < 0 → (gamma x : ℝ) < 0) :=
  ⟨gamma_pos, gamma_neg⟩

/-- C40: the two branches are linked by the reflection formula `γ(x) γ(1-x) sin(πx) = π` at every point of the left branch
where `Γ` has no pole. -/
theorem C40_reflection {x : ℝ} (hx : x < 1 / 2) (hpole : ∀ n : ℕ, x ≠ -n) :
    gamma x * gamma (1 - x) * Real.sin (Real.pi * x) = Real.pi := by
  have h1 : Real.sin (Real.pi * x) ≠ 0 := by
    rw [Real.sin_ne_zero_iff]
    intro n hn
    have hn' : (n : ℝ) = x := by
      have := Real.pi_ne_zero
      apply mul_right_cancel₀ this; rw [hn]; ring
    have hneg : n ≤ 0 := by
      have : (n : ℝ) < 1 := by rw [hn']; linarith
      have : n < 1 := by exact_mod_cast this
      omega
    apply hpole n.natAbs
    rw [← hn']
    have : n = -((n.natAbs : ℕ) : ℤ) := by omega
    exact_mod_cast this
  have h2 := (gamma_right_pos (x := 1 - x) (by linarith)).ne'
  rw [gamma_left hx]
  field_simp

/-- C40: no denominator of `gamma` vanishes on `(-1, ∞)` except at the pole `0`: the terms `k - x` (left branch) and
`x + k - 1` (right branch) of the series and the divisor of the left branch. -/
theorem C40_denominators {x : ℝ} (hx : -1 < x) (h0 : x ≠ 0) :
    (x < 1 / 2 → (∀ k : ℕ, 1 ≤ k → (k : ℝ) - x ≠ 0) ∧ Real.sin (Real.pi * x) * gamma (1 - x) ≠ 0) ∧
    (1 / 2 ≤ x → ∀ k : ℕ, 1 ≤ k → x + k - 1 ≠ 0) := by
  refine ⟨fun h => ⟨fun k hk => ?_, ?_⟩, fun h k hk => ?_⟩
  · have : (1 : ℝ) ≤ k := by exact_mod_cast hk
    linarith
  · rcases lt_or_gt_of_ne h0 with hn | hp
    · have := gamma_neg hx hn
      intro hz
      rw [gamma_left h, hz, div_zero] at this
      exact lt_irrefl _ this
    · have := gamma_pos hp
      intro hz
      rw [gamma_left h, hz, div_zero] at this
      exact lt_irrefl _ this
  · have : (1 : ℝ) ≤ k := by exact_mod_cast hk
    linarith

example : Real.sin (Real.pi * (-1 / 3)) * gamma (1 - -1 / 3 : ℝ) ≠ 0 := ((C40_denominators (x := -1 / 3) (by norm_num) (by norm_num)).1 (by norm_num)).2

/-- at the pole the divisor vanishes: `sin(π·0) = 0` (in IEEE arithmetic this is `x/0 = ∞`; see C35) -/
theorem C40_pole : Real.sin (Real.pi * 0) * gamma (1 - 0 : ℝ) = 0 := by simp

example : (0 : ℝ) < gamma (1 / 3 : ℝ) ∧ gamma (-1 / 3 : ℝ) * gamma (1 - (-1 / 3) : ℝ) * Real.sin (Real.pi * (-1 / 3)) = Real.pi :=
  ⟨(C40_sign _).1 (by norm_num), C40_reflection (by norm_num) (fun n h => by
    have h3 : (3 : ℝ) * n = 1 := by linarith
    have : 3 * n = 1 := by exact_mod_cast h3
    omega)⟩

end GaussQuad.Props
