import Verif.Spec.Arithmetic
import Verif.Props.Param
import Verif.Proofs.F64Special

/-!
# C128: the binary64 arithmetic of the model is that of IEEE 754 for all operands
-/

set_option exponentiation.threshold 3000

namespace GaussQuad.Props
open Spec F64 FloatOps

/-- what `decode` and the sign bit say about the value -/
def Read : Datum → Bool → F64 → Prop
  | .nan, _, x => x.isNaN = true
  | .infinity s, b, x => x = inf s ∧ s = b
  | .number q, b, x => x.isFinite = true ∧ x.val = q ∧ x.sign = b

theorem read_ofBits {b : ℕ} (hb : b < 2 ^ 64) : Read (decode b) (signBit b) (ofBits b) := by
  have h := decode_ofBits b hb
  have hs : (ofBits b).sign = signBit b := by
    show decide (2 ^ 63 ≤ b % 2 ^ 64) = decide (2 ^ 63 ≤ b)
    rw [Nat.mod_eq_of_lt hb]
  cases hd : decode b with
  | nan => rw [hd] at h; exact h
  | infinity s =>
    rw [hd] at h
    refine ⟨?_, h.2.symm.trans hs⟩
    have h1 := h.1
    have h2 := h.2
    generalize ofBits b = x at *
    cases x
    simp only [isInf, decide_eq_true_eq] at h1
    simp only at h2
    subst h1 h2
    rfl
  | number q => rw [hd] at h; exact ⟨h.1, h.2, hs⟩

theorem inf_facts (s : Bool) : (inf s).isNaN = false ∧ (inf s).isInf = true ∧ (inf s).sign = s ∧ (inf s).isZero = false := by cases s <;> decide

theorem nan_isNaN : (F64.nan).isNaN = true := by decide

section
variable [L : Libm]

/-- C128: addition -/
theorem C128_add {a b : ℕ} (ha : a < 2 ^ 64) (hb : b < 2 ^ 64) : IsSum a b (ofBits a +ᶠ ofBits b) := by
  have hx := read_ofBits ha
  have hy := read_ofBits hb
  show IsSum a b (F64.add (ofBits a) (ofBits b))
  unfold IsSum
  generalize ofBits a = x at *
  generalize ofBits b = y at *
  generalize signBit a = sa at *
  generalize signBit b = sb at *
  unfold F64.add
  cases hda : decode a with
  | nan => rw [hda] at hx; simp only [Read] at hx; simp [hx, nan_isNaN]
  | infinity s =>
    rw [hda] at hx; obtain ⟨rfl, rfl⟩ := hx
    obtain ⟨i1, i2, i3, i4⟩ := inf_facts s
    cases hdb : decode b with
    | nan => rw [hdb] at hy; simp only [Read] at hy; simp [hy, nan_isNaN]
    | infinity t =>
      rw [hdb] at hy; obtain ⟨rfl, rfl⟩ := hy
      obtain ⟨j1, j2, j3, j4⟩ := inf_facts t
      simp only [i1, i2, i3, j1, j2, j3]
      cases s <;> cases t <;> simp [nan_isNaN]
    | number q =>
      rw [hdb] at hy; obtain ⟨h1, h2, h3⟩ := hy
      simp [i1, i2, isNaN_of_finite h1, isInf_of_finite h1]
  | number p =>
    rw [hda] at hx; obtain ⟨g1, g2, g3⟩ := hx
    cases hdb : decode b with
    | nan => rw [hdb] at hy; simp only [Read] at hy; simp [hy, nan_isNaN]
    | infinity t =>
      rw [hdb] at hy; obtain ⟨rfl, rfl⟩ := hy
      obtain ⟨j1, j2, j3, j4⟩ := inf_facts t
      simp [j1, j2, isNaN_of_finite g1, isInf_of_finite g1]
    | number q =>
      rw [hdb] at hy; obtain ⟨h1, h2, h3⟩ := hy
      simp only [isNaN_of_finite g1, isInf_of_finite g1, isNaN_of_finite h1, isInf_of_finite h1, Bool.or_self, Bool.false_eq_true, if_false]
      rw [g2, g3, h2, h3]
      exact round_rounded _ _

/-- C128: subtraction -/
theorem C128_sub {a b : ℕ} (ha : a < 2 ^ 64) (hb : b < 2 ^ 64) : IsDifference a b (ofBits a -ᶠ ofBits b) := by
  have hx := read_ofBits ha
  have hy := read_ofBits hb
  show IsDifference a b (F64.add (ofBits a) (F64.neg (ofBits b)))
  unfold IsDifference
  generalize ofBits a = x at *
  generalize ofBits b = y at *
  generalize signBit a = sa at *
  generalize signBit b = sb at *
  have n1 : (neg y).isNaN = y.isNaN := rfl
  have n2 : (neg y).isInf = y.isInf := rfl
  have n3 : (neg y).sign = !y.sign := rfl
  unfold F64.add
  rw [n1, n2, n3]
  cases hda : decode a with
  | nan => rw [hda] at hx; simp only [Read] at hx; simp [hx, nan_isNaN]
  | infinity s =>
    rw [hda] at hx; obtain ⟨rfl, rfl⟩ := hx
    obtain ⟨i1, i2, i3, i4⟩ := inf_facts s
    cases hdb : decode b with
    | nan => rw [hdb] at hy; simp only [Read] at hy; simp [hy, nan_isNaN]
    | infinity t =>
      rw [hdb] at hy; obtain ⟨rfl, rfl⟩ := hy
      obtain ⟨j1, j2, j3, j4⟩ := inf_facts t
      simp only [i1, i2, i3, j1, j2, j3]
      cases s <;> cases t <;> simp [nan_isNaN]
    | number q =>
      rw [hdb] at hy; obtain ⟨h1, h2, h3⟩ := hy
      simp [i1, i2, isNaN_of_finite h1, isInf_of_finite h1]
  | number p =>
    rw [hda] at hx; obtain ⟨g1, g2, g3⟩ := hx
    cases hdb : decode b with
    | nan => rw [hdb] at hy; simp only [Read] at hy; simp [hy, nan_isNaN]
    | infinity t =>
      rw [hdb] at hy; obtain ⟨rfl, rfl⟩ := hy
      obtain ⟨j1, j2, j3, j4⟩ := inf_facts t
      simp only [j1, j2, isNaN_of_finite g1, isInf_of_finite g1, Bool.or_self, Bool.false_eq_true, if_false, if_true]
      rfl
    | number q =>
      rw [hdb] at hy; obtain ⟨h1, h2, h3⟩ := hy
      simp only [isNaN_of_finite g1, isInf_of_finite g1, isNaN_of_finite h1, isInf_of_finite h1, Bool.or_self, Bool.false_eq_true, if_false]
      rw [val_neg, g2, g3, h2, h3, ← sub_eq_add_neg]
      exact round_rounded _ _

/-- C128: multiplication -/
theorem C128_mul {a b : ℕ} (ha : a < 2 ^ 64) (hb : b < 2 ^ 64) : IsProduct a b (ofBits a *ᶠ ofBits b) := by
  have hx := read_ofBits ha
  have hy := read_ofBits hb
  show IsProduct a b (F64.mul (ofBits a) (ofBits b))
  unfold IsProduct
  generalize ofBits a = x at *
  generalize ofBits b = y at *
  generalize signBit a = sa at *
  generalize signBit b = sb at *
  unfold F64.mul
  cases hda : decode a with
  | nan => rw [hda] at hx; simp only [Read] at hx; simp [hx, nan_isNaN]
  | infinity s =>
    rw [hda] at hx; obtain ⟨rfl, rfl⟩ := hx
    obtain ⟨i1, i2, i3, i4⟩ := inf_facts s
    cases hdb : decode b with
    | nan => rw [hdb] at hy; simp only [Read] at hy; simp [hy, nan_isNaN]
    | infinity t =>
      rw [hdb] at hy; obtain ⟨rfl, rfl⟩ := hy
      obtain ⟨j1, j2, j3, j4⟩ := inf_facts t
      simp [i1, i2, i3, j1, j3, j4]
    | number q =>
      rw [hdb] at hy; obtain ⟨h1, h2, h3⟩ := hy
      simp only [i1, i2, i3, isNaN_of_finite h1, Bool.or_self, Bool.false_eq_true, if_false, if_true]
      by_cases hq : q = 0
      · rw [if_pos hq, if_pos (isZero_iff.2 (h2.trans hq))]; exact nan_isNaN
      · rw [if_neg hq, if_neg (fun h => hq (h2.symm.trans (isZero_iff.1 h))), h3]
  | number p =>
    rw [hda] at hx; obtain ⟨g1, g2, g3⟩ := hx
    cases hdb : decode b with
    | nan => rw [hdb] at hy; simp only [Read] at hy; simp [hy, nan_isNaN]
    | infinity t =>
      rw [hdb] at hy; obtain ⟨rfl, rfl⟩ := hy
      obtain ⟨j1, j2, j3, j4⟩ := inf_facts t
      simp only [j1, j2, j3, isNaN_of_finite g1, isInf_of_finite g1, Bool.or_self, Bool.false_eq_true, if_false, if_true]
      by_cases hp : p = 0
      · rw [if_pos hp, if_pos (isZero_iff.2 (g2.trans hp))]; exact nan_isNaN
      · rw [if_neg hp, if_neg (fun h => hp (g2.symm.trans (isZero_iff.1 h))), g3]
    | number q =>
      rw [hdb] at hy; obtain ⟨h1, h2, h3⟩ := hy
      simp only [isNaN_of_finite g1, isInf_of_finite g1, isNaN_of_finite h1, isInf_of_finite h1, Bool.or_self, Bool.false_eq_true, if_false]
      rw [g2, g3, h2, h3]
      exact round_rounded _ _

/-- C128: division -/
theorem C128_div {a b : ℕ} (ha : a < 2 ^ 64) (hb : b < 2 ^ 64) : IsQuotient a b (ofBits a /ᶠ ofBits b) := by
  have hx := read_ofBits ha
  have hy := read_ofBits hb
  show IsQuotient a b (F64.div (ofBits a) (ofBits b))
  unfold IsQuotient
  generalize ofBits a = x at *
  generalize ofBits b = y at *
  generalize signBit a = sa at *
  generalize signBit b = sb at *
  unfold F64.div
  cases hda : decode a with
  | nan => rw [hda] at hx; simp only [Read] at hx; simp [hx, nan_isNaN]
  | infinity s =>
    rw [hda] at hx; obtain ⟨rfl, rfl⟩ := hx
    obtain ⟨i1, i2, i3, i4⟩ := inf_facts s
    cases hdb : decode b with
    | nan => rw [hdb] at hy; simp only [Read] at hy; simp [hy, nan_isNaN]
    | infinity t =>
      rw [hdb] at hy; obtain ⟨rfl, rfl⟩ := hy
      obtain ⟨j1, j2, j3, j4⟩ := inf_facts t
      simp [i1, i2, j1, j2, nan_isNaN]
    | number q =>
      rw [hdb] at hy; obtain ⟨h1, h2, h3⟩ := hy
      simp [i1, i2, i3, isNaN_of_finite h1, isInf_of_finite h1, h3]
  | number p =>
    rw [hda] at hx; obtain ⟨g1, g2, g3⟩ := hx
    cases hdb : decode b with
    | nan => rw [hdb] at hy; simp only [Read] at hy; simp [hy, nan_isNaN]
    | infinity t =>
      rw [hdb] at hy; obtain ⟨rfl, rfl⟩ := hy
      obtain ⟨j1, j2, j3, j4⟩ := inf_facts t
      simp [j1, j2, j3, isNaN_of_finite g1, isInf_of_finite g1, g3]
    | number q =>
      rw [hdb] at hy; obtain ⟨h1, h2, h3⟩ := hy
      simp only [isNaN_of_finite g1, isInf_of_finite g1, isNaN_of_finite h1, isInf_of_finite h1, Bool.or_self, Bool.false_eq_true, if_false]
      by_cases hq : q = 0
      · rw [if_pos hq, if_pos (isZero_iff.2 (h2.trans hq))]
        by_cases hp : p = 0
        · rw [if_pos hp, if_pos (isZero_iff.2 (g2.trans hp))]; exact nan_isNaN
        · rw [if_neg hp, if_neg (fun h => hp (g2.symm.trans (isZero_iff.1 h))), g3, h3]
      · rw [if_neg hq, if_neg (fun h => hq (h2.symm.trans (isZero_iff.1 h))), g2, g3, h2, h3]
        exact round_rounded _ _

/-- C128: the literals of the source and the conversions `as f64` of integers are rounded once -/
theorem C128_conversions (q : ℚ) (n : ℕ) : RoundedResult q false (lit q : F64) ∧ RoundedResult n false (ofNat n : F64) :=
  ⟨round_rounded _ _, round_rounded _ _⟩

/-- 0.0 + -0.0 is 0.0 -/
example : (ofBits 0 +ᶠ ofBits 0x8000000000000000 : F64) = zero false := by
  have h := C128_add (a := 0) (b := 0x8000000000000000) (by norm_num) (by norm_num)
  have e : decode 0 = .number 0 := by norm_num [decode]
  have e' : decode 0x8000000000000000 = .number 0 := by norm_num [decode]
  rw [IsSum, e, e'] at h
  simpa [signBit, RoundedResult] using h

/-- zero times minus infinity -/
example : (ofBits 0 *ᶠ ofBits 0xFFF0000000000000 : F64).isNaN = true := by
  have h := C128_mul (a := 0) (b := 0xFFF0000000000000) (by norm_num) (by norm_num)
  have e : decode 0 = .number 0 := by norm_num [decode]
  have e' : decode 0xFFF0000000000000 = .infinity true := by norm_num [decode]
  rw [IsProduct, e, e'] at h
  simpa using h

/-- the literal 0.1 is none of the exact decimals, and no binary64 number is nearer to 1/10 -/
example (y : F64) (hy : y.isFinite = true) : |(0.1 : ℚ) - (lit 0.1 : F64).val| ≤ |0.1 - y.val| := by
  rcases (C128_conversions 0.1 0).1 with h | ⟨-, -, h | h⟩
  · norm_num at h
  · exact absurd h.1 (by norm_num [overflowThreshold])
  · exact h.2.2.1 y hy

/-- infinity minus infinity -/
example : (ofBits 0x7FF0000000000000 -ᶠ ofBits 0x7FF0000000000000 : F64).isNaN = true :=
  C128_sub (a := 0x7FF0000000000000) (b := 0x7FF0000000000000) (by norm_num) (by norm_num)

/-- -1 divided by 0 -/
example : (ofBits 0xBFF0000000000000 /ᶠ ofBits 0 : F64) = inf true := by
  have h := C128_div (a := 0xBFF0000000000000) (b := 0) (by norm_num) (by norm_num)
  have e : decode 0xBFF0000000000000 = .number (-1) := by norm_num [decode]
  have e' : decode 0 = .number 0 := by norm_num [decode]
  rw [IsQuotient, e, e'] at h
  simpa [signBit] using h

end

end GaussQuad.Props
