import Verif.Model.F64
import Mathlib.Analysis.SpecialFunctions.Trigonometric.Basic

/-!
# What is asked of the math backend

Rust leaves the precision of `sin` and `cos` unspecified, so accuracy is a hypothesis.  It asks for two units of `2^-53`, what an implementation
with an error below one unit in the last place provides.
-/

namespace GaussQuad.Spec

set_option exponentiation.threshold 3000

/-- `sin` has relative error at most `2^-52` on `[2^-500, 2]`, `cos` has absolute error at most `2^-52` on `[0, 4]`. -/
structure AccurateTrig (L : Libm) : Prop where
  sin : ∀ x : F64, x.isFinite = true → 1 / 2 ^ 500 ≤ (x.val : ℝ) → (x.val : ℝ) ≤ 2 →
    (L.sin x).isFinite = true ∧ |((L.sin x).val : ℝ) - Real.sin x.val| ≤ 1 / 2 ^ 52 * |Real.sin x.val|
  cos : ∀ x : F64, x.isFinite = true → 0 ≤ (x.val : ℝ) → (x.val : ℝ) ≤ 4 →
    (L.cos x).isFinite = true ∧ |((L.cos x).val : ℝ) - Real.cos x.val| ≤ 1 / 2 ^ 52

/-- `sin` has absolute error at most `2^-52` on `[0, 4]`, in particular near `π` (needed by the Chebyshev rule of the second kind) -/
def AccurateSin (L : Libm) : Prop := ∀ x : F64, x.isFinite = true → 0 ≤ (x.val : ℝ) → (x.val : ℝ) ≤ 4 →
  (L.sin x).isFinite = true ∧ |((L.sin x).val : ℝ) - Real.sin x.val| ≤ 1 / 2 ^ 52

/-- `sin` has absolute error at most `2^-52` on `[-4, 0]` (needed by `gamma` at negative arguments) -/
def AccurateSinNeg (L : Libm) : Prop := ∀ x : F64, x.isFinite = true → -4 ≤ (x.val : ℝ) → (x.val : ℝ) ≤ 0 →
  (L.sin x).isFinite = true ∧ |((L.sin x).val : ℝ) - Real.sin x.val| ≤ 1 / 2 ^ 52

end GaussQuad.Spec
