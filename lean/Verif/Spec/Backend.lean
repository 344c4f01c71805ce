import Verif.Model.F64
import Mathlib.Analysis.SpecialFunctions.Pow.Real

/-!
# What is asked of `pow` and `sqrt`

Rust leaves the precision of `powf` unspecified; an implementation with an error below one unit in the last place meets `AccuratePow`.  `sqrt` is
documented to be correctly rounded, which gives `AccurateSqrt`.
-/

namespace GaussQuad.Spec

set_option exponentiation.threshold 3000

/-- `pow` has relative error at most `2^-52` for bases in `[1, 128]` and exponents in `[-2, 400]`, as long as the result is at most `2^1022` -/
def AccuratePow (L : Libm) : Prop := ∀ x y : F64, x.isFinite = true → y.isFinite = true → 1 ≤ (x.val : ℝ) → (x.val : ℝ) ≤ 128 →
  -2 ≤ (y.val : ℝ) → (y.val : ℝ) ≤ 400 → (x.val : ℝ) ^ (y.val : ℝ) ≤ 2 ^ 1022 →
  (L.pow x y).isFinite = true ∧ |((L.pow x y).val : ℝ) - (x.val : ℝ) ^ (y.val : ℝ)| ≤ 1 / 2 ^ 52 * (x.val : ℝ) ^ (y.val : ℝ)

/-- `sqrt` of a positive finite number has relative error at most `2^-52` -/
def AccurateSqrt (L : Libm) : Prop := ∀ x : F64, x.isFinite = true → 0 < (x.val : ℝ) →
  (L.sqrt x).isFinite = true ∧ |((L.sqrt x).val : ℝ) - Real.sqrt x.val| ≤ 1 / 2 ^ 52 * Real.sqrt x.val

end GaussQuad.Spec
