import Verif.Proofs.F64Gamma
import Verif.Proofs.F64Bessel
import Verif.Proofs.F64Monotone

/-!
# C127: the constants `PI` and `E` of the program are the binary64 numbers nearest to π and e
-/

set_option exponentiation.threshold 3000

namespace GaussQuad.Props
open Spec F64 FloatOps

/-- `c` is closer to `t` than every other finite binary64 number -/
def Nearest (c : F64) (t : ℝ) : Prop := c.isFinite = true ∧ ∀ y : F64, y.isFinite = true → y ≠ c → |(c.val : ℝ) - t| < |(y.val : ℝ) - t|

theorem nearest_of_neighbours {c lo hi : F64} {t : ℝ} (hc : c.isFinite = true) (sc : c.sign = false) (slo : lo.sign = false) (shi : hi.sign = false)
    (mlo : lo.mag + 1 = c.mag) (mhi : c.mag + 1 = hi.mag) (h1 : |(c.val : ℝ) - t| < t - lo.val) (h2 : |(c.val : ℝ) - t| < hi.val - t) : Nearest c t := by
  refine ⟨hc, fun y hy hne => ?_⟩
  have key : y.val ≤ lo.val ∨ hi.val ≤ y.val := by
    have hp : (0 : ℚ) < 2 ^ 1074 := by positivity
    rw [val_of_pos slo, val_of_pos shi]
    rcases hs : y.sign with _ | _
    · rw [val_of_pos hs, div_le_div_iff_of_pos_right hp, div_le_div_iff_of_pos_right hp, Nat.cast_le, Nat.cast_le,
        magInt_strictMono.le_iff_le, magInt_strictMono.le_iff_le]
      have : y.mag ≠ c.mag := fun h => hne (by
        cases y; cases c; simp only at hs sc h; subst hs sc h; rfl)
      omega
    · left
      rw [val_of_neg hs]
      have a : (0 : ℚ) ≤ magInt y.mag / 2 ^ 1074 := by positivity
      have b : (0 : ℚ) ≤ magInt lo.mag / 2 ^ 1074 := by positivity
      linarith
  rcases key with h | h
  · have h' : (y.val : ℝ) ≤ lo.val := by exact_mod_cast h
    have := neg_abs_le ((y.val : ℝ) - t)
    linarith
  · have h' : (hi.val : ℝ) ≤ y.val := by exact_mod_cast h
    have := le_abs_self ((y.val : ℝ) - t)
    linarith

/-- C127: `PI` is the binary64 number nearest to π, and no other is as near. -/
theorem C127_pi [L : Libm] : Nearest (pi : F64) Real.pi := by
  have e : (F64.ofBits 0x400921FB54442D18).val = 884279719003555 / 281474976710656 := by decide +kernel
  have e1 : (F64.ofBits 0x400921FB54442D17).val = 7074237752028439 / 2251799813685248 := by decide +kernel
  have e2 : (F64.ofBits 0x400921FB54442D19).val = 7074237752028441 / 2251799813685248 := by decide +kernel
  have h1 := Real.pi_gt_d20
  have h2 := Real.pi_lt_d20
  change Nearest (F64.ofBits 0x400921FB54442D18) _
  refine nearest_of_neighbours (lo := F64.ofBits 0x400921FB54442D17) (hi := F64.ofBits 0x400921FB54442D19) (by decide +kernel) (by decide +kernel)
    (by decide +kernel) (by decide +kernel) (by decide +kernel) (by decide +kernel) ?_ ?_
  · rw [e, e1, abs_lt]; push_cast; constructor <;> linarith
  · rw [e, e2, abs_lt]; push_cast; constructor <;> linarith

/-- C127: `E` is the binary64 number nearest to e, and no other is as near. -/
theorem C127_e [L : Libm] : Nearest (FloatOps.e : F64) (Real.exp 1) := by
  have e : (F64.ofBits 0x4005BF0A8B145769).val = 6121026514868073 / 2251799813685248 := by decide +kernel
  have e1 : (F64.ofBits 0x4005BF0A8B145768).val = 6121026514868072 / 2251799813685248 := by decide +kernel
  have e2 : (F64.ofBits 0x4005BF0A8B14576A).val = 6121026514868074 / 2251799813685248 := by decide +kernel
  have h := _root_.abs_le.1 Real.exp_one_near_20
  change Nearest (F64.ofBits 0x4005BF0A8B145769) _
  refine nearest_of_neighbours (lo := F64.ofBits 0x4005BF0A8B145768) (hi := F64.ofBits 0x4005BF0A8B14576A) (by decide +kernel) (by decide +kernel)
    (by decide +kernel) (by decide +kernel) (by decide +kernel) (by decide +kernel) ?_ ?_
  · rw [e, e1, abs_lt]; push_cast; constructor <;> linarith
  · rw [e, e2, abs_lt]; push_cast; constructor <;> linarith

/-- C127: PI is below π, by between 1.22e-16 and 1.23e-16. -/
theorem C127_pi_below [L : Libm] : ((pi : F64).val : ℝ) < Real.pi ∧ 1.22 / 10 ^ 16 < Real.pi - (pi : F64).val ∧ Real.pi - (pi : F64).val < 1.23 / 10 ^ 16 := by
  have e : (F64.ofBits 0x400921FB54442D18).val = 884279719003555 / 281474976710656 := by decide +kernel
  have h1 := Real.pi_gt_d20
  have h2 := Real.pi_lt_d20
  change ((F64.ofBits 0x400921FB54442D18).val : ℝ) < _ ∧ _ < _ - ((F64.ofBits 0x400921FB54442D18).val : ℝ) ∧ _ - ((F64.ofBits 0x400921FB54442D18).val : ℝ) < _
  rw [e]; push_cast
  refine ⟨?_, ?_, ?_⟩ <;> linarith

/-- 3.1415926535897936, the next number, is farther from π -/
example [L : Libm] : |((pi : F64).val : ℝ) - Real.pi| < |((F64.ofBits 0x400921FB54442D19).val : ℝ) - Real.pi| :=
  C127_pi.2 _ (by decide +kernel) (by change _ ≠ F64.ofBits 0x400921FB54442D18; decide +kernel)

/-- 2.7182818284590446, the number before, is farther from e -/
example [L : Libm] : |((FloatOps.e : F64).val : ℝ) - Real.exp 1| < |((F64.ofBits 0x4005BF0A8B145768).val : ℝ) - Real.exp 1| :=
  C127_e.2 _ (by decide +kernel) (by change _ ≠ F64.ofBits 0x4005BF0A8B145769; decide +kernel)

/-- so an angle k * PI / n with 0 <= k <= n, taken in exact arithmetic, never passes π -/
example [L : Libm] (k n : ℕ) (hn : 0 < n) (hk : k ≤ n) : (k : ℝ) * (pi : F64).val / n ≤ Real.pi := by
  have h : ((pi : F64).val : ℝ) < Real.pi := C127_pi_below.1
  have hn' : (0 : ℝ) < n := by exact_mod_cast hn
  have hk' : (k : ℝ) ≤ n := by exact_mod_cast hk
  rw [div_le_iff₀ hn']
  nlinarith [Real.pi_pos, (Nat.cast_nonneg k : (0 : ℝ) ≤ k)]

end GaussQuad.Props
