import Verif.Props.Param

/-!
# C53: comparisons of `f64`
-/

set_option exponentiation.threshold 3000

namespace GaussQuad.Props
open Spec F64

theorem key_lt_infMag {x : F64} (h : x.isFinite = true) : |x.key| < infMag := by
  have : x.mag < infMag := by simpa [isFinite] using h
  unfold key; split
  · rw [abs_neg, Nat.abs_cast]; exact_mod_cast this
  · rw [Nat.abs_cast]; exact_mod_cast this

theorem key_inf {x : F64} (h : x.isInf = true) : x.key = if x.sign then -(infMag : ℤ) else infMag := by
  have : x.mag = infMag := by simpa [isInf] using h
  unfold key; rw [this]

theorem not_nan_of_finite {x : F64} (h : x.isFinite = true) : x.isNaN = false := by
  simp only [isFinite, isNaN, decide_eq_true_eq, decide_eq_false_iff_not] at *; omega

theorem not_nan_of_inf {x : F64} (h : x.isInf = true) : x.isNaN = false := by
  simp only [isInf, isNaN, decide_eq_true_eq, decide_eq_false_iff_not] at *; omega

/-- the key of `total_cmp` on the bits of a non-negative value -/
theorem totalCmpKey_pos {m : ℕ} (hm : m < 2 ^ 63) : (totalCmpKey (BitVec.ofNat 64 m)).toInt = m := by
  have hmsb : (BitVec.ofNat 64 m).msb = false := by
    rw [BitVec.msb_eq_false_iff_two_mul_lt, BitVec.toNat_ofNat, Nat.mod_eq_of_lt (by omega)]; omega
  have h0 : (BitVec.ofNat 64 m).sshiftRight 63 = 0#64 := by
    rw [BitVec.sshiftRight_eq_of_msb_false hmsb]
    apply BitVec.eq_of_toNat_eq
    rw [BitVec.toNat_ushiftRight, BitVec.toNat_ofNat, Nat.mod_eq_of_lt (by omega), Nat.shiftRight_eq_div_pow, Nat.div_eq_of_lt hm]; rfl
  rw [totalCmpKey, h0]
  simp only [BitVec.zero_ushiftRight, BitVec.xor_zero]
  rw [BitVec.toInt_eq_toNat_of_msb hmsb, BitVec.toNat_ofNat, Nat.mod_eq_of_lt (by omega)]

/-- the key of `total_cmp` on the bits of a value with the sign bit set -/
theorem totalCmpKey_neg {m : ℕ} (hm : m < 2 ^ 63) : (totalCmpKey (BitVec.ofNat 64 (2 ^ 63 + m))).toInt = -(m : ℤ) - 1 := by
  have hb : (BitVec.ofNat 64 (2 ^ 63 + m)).toNat = 2 ^ 63 + m := by rw [BitVec.toNat_ofNat, Nat.mod_eq_of_lt (by omega)]
  have hmsb : (BitVec.ofNat 64 (2 ^ 63 + m)).msb = true := by
    rw [BitVec.msb_eq_true_iff_two_mul_ge, hb]; omega
  have h0 : (BitVec.ofNat 64 (2 ^ 63 + m)).sshiftRight 63 >>> 1 = ~~~ (0x8000000000000000#64) := by
    rw [BitVec.sshiftRight_eq_of_msb_true hmsb]
    have : ~~~(BitVec.ofNat 64 (2 ^ 63 + m)) >>> 63 = 0#64 := by
      apply BitVec.eq_of_toNat_eq
      rw [BitVec.toNat_ushiftRight, BitVec.toNat_not, hb, Nat.shiftRight_eq_div_pow, Nat.div_eq_of_lt (by omega)]; rfl
    rw [this]; decide
  have h1 : (totalCmpKey (BitVec.ofNat 64 (2 ^ 63 + m))) = ~~~ (BitVec.ofNat 64 m) := by
    rw [totalCmpKey, h0]
    have e : BitVec.ofNat 64 (2 ^ 63 + m) = 0x8000000000000000#64 ^^^ BitVec.ofNat 64 m := by
      apply BitVec.eq_of_toNat_eq
      rw [hb, BitVec.toNat_xor, BitVec.toNat_ofNat, BitVec.toNat_ofNat, Nat.mod_eq_of_lt (by omega : m < 2 ^ 64)]
      apply Nat.eq_of_testBit_eq
      intro i
      rw [Nat.testBit_xor]
      show _ = ((2 ^ 63).testBit i ^^ m.testBit i)
      by_cases hi : i = 63
      · subst hi
        rw [Nat.testBit_two_pow_add_eq, Nat.testBit_two_pow_self]; simp
      · rw [Nat.testBit_two_pow_of_ne (Ne.symm hi)]
        rcases Nat.lt_or_gt_of_ne hi with h | h
        · rw [Nat.testBit_two_pow_add_gt h]; simp
        · rw [Nat.testBit_lt_two_pow (by calc 2 ^ 63 + m < 2 ^ 64 := by omega
            _ ≤ 2 ^ i := Nat.pow_le_pow_right (by norm_num) h), Nat.testBit_lt_two_pow (by calc m < 2 ^ 63 := hm
            _ ≤ 2 ^ i := Nat.pow_le_pow_right (by norm_num) h.le)]; rfl
    rw [e]
    generalize BitVec.ofNat 64 m = M
    generalize 0x8000000000000000#64 = A
    ext i hi
    rw [BitVec.getElem_xor, BitVec.getElem_xor, BitVec.getElem_not, BitVec.getElem_not]
    cases A[i] <;> cases M[i] <;> rfl
  rw [h1]
  have hmsb' : (~~~ (BitVec.ofNat 64 m)).msb = true := by
    rw [BitVec.msb_not, BitVec.msb_eq_false_iff_two_mul_lt.2 (by rw [BitVec.toNat_ofNat, Nat.mod_eq_of_lt (by omega)]; omega)]; simp
  rw [BitVec.toInt_eq_msb_cond, hmsb', if_pos rfl, BitVec.toNat_not, BitVec.toNat_ofNat, Nat.mod_eq_of_lt (by omega)]
  omega

theorem totalKey_eq {b : ℕ} (hb : b < 2 ^ 64) : (ofBits b).totalKey = (totalCmpKey (BitVec.ofNat 64 b)).toInt := by
  have hmag : (ofBits b).mag = b % 2 ^ 63 := rfl
  have hsign : (ofBits b).sign = decide (2 ^ 63 ≤ b % 2 ^ 64) := rfl
  rw [totalKey, hmag, hsign]
  by_cases h : 2 ^ 63 ≤ b % 2 ^ 64
  · rw [decide_eq_true h, if_pos rfl, ← totalCmpKey_neg (Nat.mod_lt _ (by norm_num))]
    congr 3; omega
  · rw [decide_eq_false h, if_neg (by decide), ← totalCmpKey_pos (Nat.mod_lt _ (by norm_num))]
    congr 3; omega

variable [L : Libm]

/-- C53, `<`: on the decoded bit patterns it is the order of the standard; any NaN makes it false. -/
theorem C53_lt {a b : ℕ} (ha : a < 2 ^ 64) (hb : b < 2 ^ 64) :
    FloatOps.lt (ofBits a) (ofBits b) = true ↔ (decode a).Less (decode b) := by
  have h1 := decode_ofBits a ha
  have h2 := decode_ofBits b hb
  show (!(ofBits a).isNaN && !(ofBits b).isNaN && decide ((ofBits a).key < (ofBits b).key)) = true ↔ _
  generalize ofBits a = x at *
  generalize ofBits b = y at *
  cases hd : decode a with
  | nan => rw [hd] at h1; simp only at h1; simp [h1, Datum.Less]
  | infinity s =>
    rw [hd] at h1; simp only at h1
    obtain ⟨i1, rfl⟩ := h1
    have n1 := not_nan_of_inf i1
    have k1 := key_inf i1
    cases he : decode b with
    | nan => rw [he] at h2; simp only at h2; simp [h2, Datum.Less]
    | infinity t =>
      rw [he] at h2; simp only at h2
      obtain ⟨i2, rfl⟩ := h2
      have k2 := key_inf i2
      have hpos : (0 : ℤ) < infMag := by decide
      simp only [n1, not_nan_of_inf i2, k1, k2, Datum.Less, Bool.not_false, Bool.true_and, decide_eq_true_eq]
      cases x.sign <;> cases y.sign <;> simp <;> omega
    | number q =>
      rw [he] at h2; simp only at h2
      have k2 := abs_lt.1 (key_lt_infMag h2.1)
      simp only [n1, not_nan_of_finite h2.1, k1, Datum.Less, Bool.not_false, Bool.true_and, decide_eq_true_eq]
      cases x.sign <;> simp <;> omega
  | number p =>
    rw [hd] at h1; simp only at h1
    have n1 := not_nan_of_finite h1.1
    have k1 := abs_lt.1 (key_lt_infMag h1.1)
    cases he : decode b with
    | nan => rw [he] at h2; simp only at h2; simp [h2, Datum.Less]
    | infinity t =>
      rw [he] at h2; simp only at h2
      obtain ⟨i2, rfl⟩ := h2
      have k2 := key_inf i2
      simp only [n1, not_nan_of_inf i2, k2, Datum.Less, Bool.not_false, Bool.true_and, decide_eq_true_eq]
      cases y.sign <;> simp <;> omega
    | number q =>
      rw [he] at h2; simp only at h2
      have := ltb_finite h1.1 h2.1
      rw [ltb] at this
      rw [this, h1.2, h2.2]; rfl

/-- C53, `==`: equality of the decoded values; the two zeros are equal, NaN is not equal to itself. -/
theorem C53_eq {a b : ℕ} (ha : a < 2 ^ 64) (hb : b < 2 ^ 64) :
    FloatOps.feq (ofBits a) (ofBits b) = true ↔ (decode a).Equal (decode b) := by
  have hl1 := C53_lt ha hb
  have hl2 := C53_lt hb ha
  have h1 := decode_ofBits a ha
  have h2 := decode_ofBits b hb
  have e : FloatOps.feq (ofBits a) (ofBits b) = true ↔
      ((ofBits a).isNaN = false ∧ (ofBits b).isNaN = false ∧ ¬ FloatOps.lt (ofBits a) (ofBits b) = true ∧ ¬ FloatOps.lt (ofBits b) (ofBits a) = true) := by
    show (!(ofBits a).isNaN && !(ofBits b).isNaN && decide ((ofBits a).key = (ofBits b).key)) = true ↔
      (_ ∧ _ ∧ ¬ (!(ofBits a).isNaN && !(ofBits b).isNaN && decide ((ofBits a).key < (ofBits b).key)) = true ∧
        ¬ (!(ofBits b).isNaN && !(ofBits a).isNaN && decide ((ofBits b).key < (ofBits a).key)) = true)
    cases (ofBits a).isNaN <;> cases (ofBits b).isNaN <;> simp
    omega
  rw [e, hl1, hl2]
  generalize ofBits a = x at *
  generalize ofBits b = y at *
  cases hd : decode a <;> cases he : decode b <;> rw [hd] at h1 <;> rw [he] at h2 <;> simp only at h1 h2 <;>
    simp only [Datum.Less, Datum.Equal, not_false_eq_true, and_true, and_false, iff_false, not_and, Bool.not_eq_false]
  case nan.nan => simp [h1]
  case nan.infinity => simp [h1]
  case nan.number => simp [h1]
  case infinity.nan => simp [h2]
  case number.nan => simp [h2]
  case infinity.infinity s t =>
    simp only [not_nan_of_inf h1.1, not_nan_of_inf h2.1]
    cases s <;> cases t <;> simp
  case infinity.number s q =>
    intro _ _; cases s <;> simp
  case number.infinity q s =>
    intro _ _; cases s <;> simp
  case number.number p q =>
    simp only [not_nan_of_finite h1.1, not_nan_of_finite h2.1, not_lt, true_and]
    exact ⟨fun h => le_antisymm h.2 h.1, fun h => ⟨h.ge, h.le⟩⟩

/-- C53, `total_cmp`: the order by which the Golub-Welsch nodes are sorted is the one computed by the standard library's bit manipulation. -/
theorem C53_total_cmp {a b : ℕ} (ha : a < 2 ^ 64) (hb : b < 2 ^ 64) :
    FloatOps.totalLe (ofBits a) (ofBits b) = (totalCmpKey (BitVec.ofNat 64 a)).sle (totalCmpKey (BitVec.ofNat 64 b)) := by
  rw [BitVec.sle, ← totalKey_eq ha, ← totalKey_eq hb]; rfl

/-- C53: `total_cmp` is a total order on bit patterns: ties only between identical values. -/
theorem C53_total_order (x y z : F64) : (FloatOps.totalLe x y = true ∨ FloatOps.totalLe y x = true) ∧
    (FloatOps.totalLe x y = true → FloatOps.totalLe y x = true → x = y) ∧
    (FloatOps.totalLe x y = true → FloatOps.totalLe y z = true → FloatOps.totalLe x z = true) ∧
    (FloatOps.lt x y = true → FloatOps.totalLe x y = true ∧ FloatOps.totalLe y x = false) := by
  simp only [FloatOps.totalLe, totalLeb, decide_eq_true_eq, FloatOps.lt, ltb, Bool.and_eq_true, decide_eq_false_iff_not]
  refine ⟨by omega, fun h1 h2 => ?_, fun h1 h2 => by omega, fun h => ?_⟩
  · obtain ⟨s, m, hm⟩ := x
    obtain ⟨t, k, hk⟩ := y
    unfold totalKey at h1 h2
    cases s <;> cases t <;> simp at h1 h2 <;> first | omega | (congr 1; omega)
  · have := h.2
    unfold key at this
    unfold totalKey
    split at this <;> split at this <;> simp_all <;> omega

/-- `-0.0 == 0.0` and neither is smaller, but `total_cmp` puts `-0.0` first; a NaN equals nothing and, with the sign bit clear, sorts last -/
example : FloatOps.feq (ofBits 0x8000000000000000) (ofBits 0) = true ∧ FloatOps.lt (ofBits 0x8000000000000000) (ofBits 0) = false ∧
    FloatOps.totalLe (ofBits 0x8000000000000000) (ofBits 0) = true ∧ FloatOps.totalLe (ofBits 0) (ofBits 0x8000000000000000) = false ∧
    FloatOps.feq (ofBits 0x7FF8000000000000) (ofBits 0x7FF8000000000000) = false ∧ FloatOps.totalLe (ofBits 0x7FF0000000000000) (ofBits 0x7FF8000000000000) = true := by
  refine ⟨?_, ?_, ?_, ?_, ?_, ?_⟩
  · exact show F64.eqb _ _ = true by decide +kernel
  · exact show F64.ltb _ _ = false by decide +kernel
  · exact show F64.totalLeb _ _ = true by decide +kernel
  · exact show F64.totalLeb _ _ = false by decide +kernel
  · exact show F64.eqb _ _ = false by decide +kernel
  · exact show F64.totalLeb _ _ = true by decide +kernel

/-- the hypotheses are met by 1.5 and 2.0 -/
example : FloatOps.lt (ofBits 0x3FF8000000000000) (ofBits 0x4000000000000000) = true := by
  rw [C53_lt (by norm_num) (by norm_num)]
  norm_num [decode, Datum.Less]

/-- the smallest subnormal and zero differ; the negative zero comes before the positive one -/
example : ¬ FloatOps.feq (ofBits 1) (ofBits 0) = true ∧ FloatOps.totalLe (ofBits 0) (ofBits 0x8000000000000000) = false := by
  rw [C53_eq (by norm_num) (by norm_num), C53_total_cmp (by norm_num) (by norm_num)]
  exact ⟨by norm_num [decode, Datum.Equal], by decide +kernel⟩

end GaussQuad.Props
