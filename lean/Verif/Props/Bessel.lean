import Verif.Spec.Bessel
import Verif.Proofs.BesselTrue

/-!
# C51: `bessel_j0_zero(k)` is the `k`-th positive zero of `J₀` and `bessel_j1_squared(k)` is `J₁²` there
-/

namespace GaussQuad.Props
open Bogaert Spec FloatOps

theorem besselJ_zero : besselJ 0 = Bessel.J0 := by
  funext x
  unfold besselJ Bessel.J0 Bessel.F Bessel.term
  congr 1; funext m
  rw [show x ^ 2 / 4 = (x / 2) ^ 2 by ring, ← pow_mul, add_zero, add_zero]
  ring

theorem besselJ_one : besselJ 1 = Bessel.J1 := by
  funext x
  unfold besselJ Bessel.J1 Bessel.F Bessel.term
  rw [← tsum_mul_left]
  congr 1; funext m
  rw [show x ^ 2 / 4 = (x / 2) ^ 2 by ring, ← pow_mul]
  ring

/-- C51: for every `k ≥ 1` both helpers return a value, the first is the `k`-th positive zero `z` of `J₀` up to a relative error of
`1.05e-16` and an absolute error of `4.3e-15`, the second is `J₁(z)²` up to a relative error of `5e-16`. -/
theorem C51_bessel {k : ℕ} (hk : 1 ≤ k) :
    ∃ ν b z : ℝ, besselJ0Zero k = some ν ∧ besselJ1Squared k = some b ∧
      besselJ 0 z = 0 ∧ 0 < z ∧ {x | 0 < x ∧ x ≤ z ∧ besselJ 0 x = 0}.ncard = k ∧
      |ν - z| ≤ 105 / 10 ^ 18 * z ∧ |ν - z| ≤ 43 / 10 ^ 16 ∧ |b - besselJ 1 z ^ 2| ≤ 5 / 10 ^ 16 * besselJ 1 z ^ 2 := by
  rw [besselJ_zero, besselJ_one]
  have key : ∀ k, 1 ≤ k → ∃ z, ∃ ν b : ℝ, besselJ0Zero k = some ν ∧ besselJ1Squared k = some b ∧ Bessel.J0 z = 0 ∧ 0 < z ∧
      |ν - z| ≤ 105 / 10 ^ 18 * z ∧ |ν - z| ≤ 43 / 10 ^ 16 ∧ |b - Bessel.J1 z ^ 2| ≤ 5 / 10 ^ 16 * Bessel.J1 z ^ 2 ∧ Bessel.J1 z ≠ 0 ∧
      |z - Real.pi * (k - 1 / 4)| ≤ 0.06 := by
    intro k hk
    obtain ⟨nu, hnu⟩ := besselJ0Zero_some (F := ℝ) hk
    obtain ⟨b, hb⟩ := besselJ1Squared_some (F := ℝ) hk
    obtain ⟨z, h1, h2, h3, h4, h5, h6⟩ := BesselTrue.true_zero hk hnu hb
    refine ⟨z, nu, b, hnu, hb, h1, h2, ?_, h3.trans (by norm_num), h6, h5, ?_⟩
    · have h7 := abs_le.1 h4
      refine h4.trans ?_
      norm_num at *
      linarith
    · have h7 := Asymptotic.nu_close hk hnu
      rw [abs_le] at *
      norm_num at *
      constructor <;> linarith
  choose! z ν b h using key
  obtain ⟨h1, h2, h3, h4, h5, h6, h7, h8, h9⟩ := h k hk
  refine ⟨ν k, b k, z k, h1, h2, h3, h4, ?_, h5, h6, h7⟩
  obtain ⟨c1, c2, -⟩ := BesselTrue.count_zeros (z := z) (fun k hk => ⟨(h k hk).2.2.1, (h k hk).2.2.2.1, (h k hk).2.2.2.2.2.2.2⟩) k hk
  rw [c1, Set.ncard_coe_finset, Finset.card_image_of_injOn c2]
  simp

/-- the first zero, 2.404825557695773: `J₀` has no zero below -/
example : ∃ z : ℝ, besselJ 0 z = 0 ∧ |2.404825557695773 - z| ≤ 1 / 10 ^ 14 ∧ {x | 0 < x ∧ x ≤ z ∧ besselJ 0 x = 0}.ncard = 1 := by
  obtain ⟨ν, b, z, h1, -, h3, -, h5, -, h6, -⟩ := C51_bessel (k := 1) le_rfl
  refine ⟨z, h3, ?_, h5⟩
  have e : ν = 2.404825557695773 := by
    have : (besselJ0Zero 1 : Option ℝ) = some (tableLit 240482555769577300000) := rfl
    rw [this, Option.some.injEq] at h1
    rw [← h1, tableLit, real_lit]
    norm_num
  rw [← e]
  exact h6.trans (by norm_num)

end GaussQuad.Props
