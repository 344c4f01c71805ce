import Verif.Model.Ops
import Mathlib.Analysis.SpecialFunctions.Pow.Real
import Mathlib.Analysis.SpecialFunctions.Trigonometric.Basic

/-!
Exact real arithmetic as an instance of the float interface: literals are the exact decimals of the source,
`PI` is `π`, `E` is `exp 1`.
-/

namespace GaussQuad

/-- not in /repo: exact arithmetic in place of `f64`, /repo/src/math.rs l.17-91 -/
noncomputable instance realOps : FloatOps ℝ where
  add := (· + ·)
  sub := (· - ·)
  mul := (· * ·)
  div := (· / ·)
  sin := Real.sin
  cos := Real.cos
  pow := fun x y => x ^ y
  sqrt := Real.sqrt
  lit := fun q => (q : ℝ)
  ofNat := fun n => (n : ℝ)
  pi := Real.pi
  e := Real.exp 1
  lt := fun x y => decide (x < y)
  feq := fun x y => decide (x = y)
  isFinite := fun _ => true
  totalLe := fun x y => decide (x ≤ y)
  sumInit := 0

section
variable (x y : ℝ)
@[simp] theorem real_add : x +ᶠ y = x + y := rfl
@[simp] theorem real_sub : x -ᶠ y = x - y := rfl
@[simp] theorem real_mul : x *ᶠ y = x * y := rfl
@[simp] theorem real_div : x /ᶠ y = x / y := rfl
@[simp] theorem real_sin : FloatOps.sin x = Real.sin x := rfl
@[simp] theorem real_cos : FloatOps.cos x = Real.cos x := rfl
@[simp] theorem real_pow : FloatOps.pow x y = x ^ y := rfl
@[simp] theorem real_sqrt : FloatOps.sqrt x = Real.sqrt x := rfl
@[simp] theorem real_lit (q : ℚ) : (FloatOps.lit q : ℝ) = (q : ℝ) := rfl
@[simp] theorem real_ofNat (n : ℕ) : (FloatOps.ofNat n : ℝ) = (n : ℝ) := rfl
@[simp] theorem real_pi : (FloatOps.pi : ℝ) = Real.pi := rfl
@[simp] theorem real_e : (FloatOps.e : ℝ) = Real.exp 1 := rfl
@[simp] theorem real_lt : FloatOps.lt x y = decide (x < y) := rfl
@[simp] theorem real_feq : FloatOps.feq x y = decide (x = y) := rfl
@[simp] theorem real_isFinite : FloatOps.isFinite x = true := rfl
@[simp] theorem real_totalLe : FloatOps.totalLe x y = decide (x ≤ y) := rfl
@[simp] theorem real_sumInit : (FloatOps.sumInit : ℝ) = 0 := rfl
end

end GaussQuad
