import Verif.Proofs.F64Nat

/-! # binary64: zeros, infinities, NaN -/

set_option exponentiation.threshold 3000

namespace GaussQuad.F64
open Spec

theorem trichotomy (x : F64) : x.isFinite = true ∨ x.isInf = true ∨ x.isNaN = true := by
  simp only [isFinite, isInf, isNaN, decide_eq_true_eq]; omega

theorem not_finite_of_nan {x : F64} (h : x.isNaN = true) : x.isFinite = false := by
  simp only [isFinite, isNaN, decide_eq_true_eq, decide_eq_false_iff_not] at *; omega

theorem not_finite_of_inf {x : F64} (h : x.isInf = true) : x.isFinite = false := by
  simp only [isFinite, isInf, decide_eq_true_eq, decide_eq_false_iff_not] at *; omega

theorem not_nan_of_inf {x : F64} (h : x.isInf = true) : x.isNaN = false := by
  simp only [isNaN, isInf, decide_eq_true_eq, decide_eq_false_iff_not] at *; omega

theorem not_inf_of_nan {x : F64} (h : x.isNaN = true) : x.isInf = false := by
  simp only [isNaN, isInf, decide_eq_true_eq, decide_eq_false_iff_not] at *; omega

theorem isZero_zero (s : Bool) : (zero s).isZero = true := by simp [zero, isZero]

theorem zero_of_isZero {x : F64} (h : x.isZero = true) : x = zero x.sign := by
  simp only [isZero, decide_eq_true_eq] at h
  cases x; simp_all [zero]

theorem isZero_iff {x : F64} : x.isZero = true ↔ x.val = 0 := by
  rw [val_eq_zero_iff]; simp [isZero]

theorem finite_of_isZero {x : F64} (h : x.isZero = true) : x.isFinite = true := by
  rw [zero_of_isZero h]; exact zero_isFinite _

theorem nan_isNaN : nan.isNaN = true := by decide

theorem neg_isFinite (x : F64) : (neg x).isFinite = x.isFinite := rfl
theorem neg_isNaN (x : F64) : (neg x).isNaN = x.isNaN := rfl
theorem neg_isInf (x : F64) : (neg x).isInf = x.isInf := rfl
theorem neg_sign (x : F64) : (neg x).sign = !x.sign := rfl

theorem val_neg' (y : F64) : (neg y).val = -y.val := by
  cases hs : y.sign
  · rw [val_of_pos hs, val_of_neg (by simp [neg, hs])]; rfl
  · rw [val_of_neg hs, val_of_pos (by simp [neg, hs]), neg_neg]; rfl

/-- operations on finite operands -/
theorem add_finite {x y : F64} (hx : x.isFinite = true) (hy : y.isFinite = true) :
    add x y = round (x.val + y.val) (x.sign && y.sign) := by
  unfold add
  rw [isNaN_of_finite hx, isInf_of_finite hx, isNaN_of_finite hy, isInf_of_finite hy]; rfl

theorem sub_finite {x y : F64} (hx : x.isFinite = true) (hy : y.isFinite = true) :
    sub x y = round (x.val - y.val) (x.sign && !y.sign) := by
  unfold sub
  rw [add_finite hx (by rwa [neg_isFinite]), val_neg', sub_eq_add_neg]; rfl

theorem mul_finite {x y : F64} (hx : x.isFinite = true) (hy : y.isFinite = true) :
    mul x y = round (x.val * y.val) (x.sign != y.sign) := by
  unfold mul
  rw [isNaN_of_finite hx, isInf_of_finite hx, isNaN_of_finite hy, isInf_of_finite hy]; rfl

theorem div_finite {x y : F64} (hx : x.isFinite = true) (hy : y.isFinite = true) (h0 : y.isZero = false) :
    div x y = round (x.val / y.val) (x.sign != y.sign) := by
  unfold div
  rw [isNaN_of_finite hx, isInf_of_finite hx, isNaN_of_finite hy, isInf_of_finite hy, h0]; rfl

theorem round_isFinite_iff (q : ℚ) (s : Bool) : (round q s).isFinite = true ↔ |q| < overflowThreshold := by
  by_cases hq : q = 0
  · rw [hq, round_zero]
    simp only [zero_isFinite, abs_zero, true_iff]
    unfold overflowThreshold; norm_num
  · rcases round_correct hq s with ⟨-, ⟨h1, h2⟩ | ⟨h1, h2, -⟩⟩
    · constructor
      · intro hf; rw [isInf_of_finite hf] at h2; exact absurd h2 (by simp)
      · intro hn; exact absurd h1 (not_le.2 hn)
    · exact ⟨fun _ => h1, fun _ => h2⟩

theorem round_not_nan (q : ℚ) (s : Bool) : (round q s).isNaN = false := by
  by_cases hq : q = 0
  · rw [hq, round_zero]; exact isNaN_of_finite (zero_isFinite _)
  · rcases round_correct hq s with ⟨-, ⟨h1, h2⟩ | ⟨h1, h2, -⟩⟩
    · exact not_nan_of_inf h2
    · exact isNaN_of_finite h2

theorem sub_self {x : F64} (hx : x.isFinite = true) : sub x x = zero false := by
  rw [sub_finite hx hx, _root_.sub_self, round_zero]; simp

theorem zero_div {y : F64} (s : Bool) (hy : y.isFinite = true) (h0 : y.isZero = false) :
    div (zero s) y = zero (s != y.sign) := by
  rw [div_finite (zero_isFinite _) hy h0, val_zero, _root_.zero_div, round_zero]; rfl

theorem mul_zero_finite {x : F64} (s : Bool) (hx : x.isFinite = true) : mul x (zero s) = zero (x.sign != s) := by
  rw [mul_finite hx (zero_isFinite _), val_zero, mul_zero, round_zero]; rfl

theorem zero_mul_finite {x : F64} (s : Bool) (hx : x.isFinite = true) : mul (zero s) x = zero (s != x.sign) := by
  rw [mul_finite (zero_isFinite _) hx, val_zero, zero_mul, round_zero]; rfl

theorem mul_zero_nonfinite {x : F64} (s : Bool) (hx : x.isFinite = false) : mul x (zero s) = nan := by
  rcases trichotomy x with h | h | h
  · rw [hx] at h; exact absurd h (by simp)
  · unfold mul; rw [not_nan_of_inf h, h, isNaN_of_finite (zero_isFinite _), isZero_zero]; rfl
  · unfold mul; rw [h]; rfl

theorem zero_mul_nonfinite {x : F64} (s : Bool) (hx : x.isFinite = false) : mul (zero s) x = nan := by
  rcases trichotomy x with h | h | h
  · rw [hx] at h; exact absurd h (by simp)
  · unfold mul; rw [not_nan_of_inf h, h, isNaN_of_finite (zero_isFinite _), isZero_zero, isInf_of_finite (zero_isFinite _)]; rfl
  · unfold mul; rw [h, Bool.or_true]; rfl

theorem mul_nan_left {x y : F64} (hx : x.isNaN = true) : mul x y = nan := by unfold mul; rw [hx]; rfl
theorem mul_nan_right {x y : F64} (hy : y.isNaN = true) : mul x y = nan := by unfold mul; rw [hy, Bool.or_true]; rfl
theorem div_nan_left {x y : F64} (hx : x.isNaN = true) : div x y = nan := by unfold div; rw [hx]; rfl
theorem div_nan_right {x y : F64} (hy : y.isNaN = true) : div x y = nan := by unfold div; rw [hy, Bool.or_true]; rfl
theorem add_nan_left {x y : F64} (hx : x.isNaN = true) : add x y = nan := by unfold add; rw [hx]; rfl
theorem add_nan_right {x y : F64} (hy : y.isNaN = true) : add x y = nan := by unfold add; rw [hy, Bool.or_true]; rfl

/-- a zero or NaN factor makes the product zero or NaN -/
theorem mul_zeroOrNaN {x y : F64} (hx : x.isZero = true ∨ x.isNaN = true) : (mul x y).isZero = true ∨ (mul x y).isNaN = true := by
  rcases hx with h | h
  · rw [zero_of_isZero h]
    by_cases hy : y.isFinite = true
    · rw [zero_mul_finite _ hy]; exact Or.inl (isZero_zero _)
    · rw [zero_mul_nonfinite _ (by simpa using hy)]; exact Or.inr nan_isNaN
  · rw [mul_nan_left h]; exact Or.inr nan_isNaN

theorem div_by_zeroOrNaN {x y : F64} (hy : y.isZero = true ∨ y.isNaN = true) : (div x y).isInf = true ∨ (div x y).isNaN = true := by
  rcases hy with h | h
  · have hf := finite_of_isZero h
    rcases trichotomy x with hx | hx | hx
    · unfold div
      rw [isNaN_of_finite hx, isInf_of_finite hx, isNaN_of_finite hf, isInf_of_finite hf, h]
      simp only [Bool.or_self, Bool.false_eq_true, if_false, if_true]
      split
      · exact Or.inr nan_isNaN
      · left; simp [isInf, inf]
    · left
      unfold div
      rw [not_nan_of_inf hx, hx, isNaN_of_finite hf, isInf_of_finite hf]
      simp [isInf, inf]
    · right; rw [div_nan_left hx]; exact nan_isNaN
  · right; rw [div_nan_right h]; exact nan_isNaN

theorem div_by_infOrNaN {x y : F64} (hy : y.isInf = true ∨ y.isNaN = true) : (div x y).isZero = true ∨ (div x y).isNaN = true := by
  rcases hy with h | h
  · rcases trichotomy x with hx | hx | hx
    · left
      unfold div
      rw [isNaN_of_finite hx, isInf_of_finite hx, not_nan_of_inf h, h]
      exact isZero_zero _
    · right
      unfold div
      rw [not_nan_of_inf hx, hx, not_nan_of_inf h, h]
      exact nan_isNaN
    · right; rw [div_nan_left hx]; exact nan_isNaN
  · right; rw [div_nan_right h]; exact nan_isNaN

theorem zeroOrNaN_div_zero {x y : F64} (hx : x.isZero = true ∨ x.isNaN = true) (hy : y.isZero = true) : div x y = nan := by
  have hf := finite_of_isZero hy
  rcases hx with h | h
  · have hxf := finite_of_isZero h
    unfold div
    rw [isNaN_of_finite hxf, isInf_of_finite hxf, isNaN_of_finite hf, isInf_of_finite hf, hy, h]; rfl
  · exact div_nan_left h

end GaussQuad.F64
