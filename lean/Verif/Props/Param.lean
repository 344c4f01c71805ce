import Verif.Model.DataApi
import Verif.Proofs.F64Arith
import Mathlib.Tactic.IntervalCases

/-!
# The parameter type `FiniteAboveNegOneF64`: C01 – C07
-/

set_option exponentiation.threshold 3000

namespace GaussQuad.Props
open Spec F64 FiniteAboveNegOne

variable [L : Libm]

/-- the documented invariant of the type, on bit patterns of `f64` -/
def Valid (v : F64) : Prop := v.isFinite = true ∧ -1 < v.val

/-! ## C01 -/

omit L in
/-- the model's bit-level classification and value agree with the IEEE interchange format -/
theorem decode_ofBits (b : ℕ) (hb : b < 2 ^ 64) :
    (match decode b with
     | .nan => (ofBits b).isNaN = true
     | .infinity s => (ofBits b).isInf = true ∧ (ofBits b).sign = s
     | .number q => (ofBits b).isFinite = true ∧ (ofBits b).val = q) := by
  have hmag : (ofBits b).mag = b % 2 ^ 63 := rfl
  have hsign : (ofBits b).sign = decide (2 ^ 63 ≤ b % 2 ^ 64) := rfl
  have hI : infMag = 2047 * 2 ^ 52 := rfl
  have hs : b / 2 ^ 63 % 2 = if (ofBits b).sign then 1 else 0 := by
    rw [hsign]; by_cases h : 2 ^ 63 ≤ b % 2 ^ 64 <;> simp only [h, decide_true, decide_false, if_true] <;> simp <;> omega
  have hsg : ((-1 : ℚ)) ^ (b / 2 ^ 63 % 2) = if (ofBits b).sign then -1 else 1 := by
    rw [hs]; cases (ofBits b).sign <;> simp
  unfold decode
  simp only
  by_cases he : b / 2 ^ 52 % 2 ^ 11 = 2047
  · rw [if_pos he]
    by_cases hm : b % 2 ^ 52 = 0
    · rw [if_pos hm]
      refine ⟨by rw [isInf, hmag, decide_eq_true_eq, hI]; omega, ?_⟩
      rw [hs]; cases (ofBits b).sign <;> rfl
    · rw [if_neg hm]
      show (ofBits b).isNaN = true
      rw [isNaN, hmag, decide_eq_true_eq, hI]; omega
  · rw [if_neg he]
    have hfin : (ofBits b).isFinite = true := by rw [isFinite, hmag, decide_eq_true_eq, hI]; omega
    by_cases h0 : b / 2 ^ 52 % 2 ^ 11 = 0
    · rw [if_pos h0]
      refine ⟨hfin, ?_⟩
      have hk : b % 2 ^ 63 = b % 2 ^ 52 := by omega
      rw [val_eq, hmag, hk, magInt_of_lt (by omega), hsg, inv_pow]; ring
    · rw [if_neg h0]
      refine ⟨hfin, ?_⟩
      obtain ⟨e, he'⟩ : ∃ e, b / 2 ^ 52 % 2 ^ 11 = e + 1 := ⟨b / 2 ^ 52 % 2 ^ 11 - 1, by omega⟩
      have hk : b % 2 ^ 63 = e * 2 ^ 52 + (2 ^ 52 + b % 2 ^ 52) := by omega
      rw [val_eq, hmag, hk, magInt_scaled (Or.inr (by omega)) (by omega), hsg, he']
      have e1 : (2 : ℚ) ^ 1074 = 2 ^ 1023 * 2 ^ 51 := by rw [← pow_add]
      have e2 : (2 : ℚ) ^ 52 = 2 * 2 ^ 51 := by rw [← pow_succ']
      rw [e1, inv_pow]
      push_cast
      rw [e2]
      have h1 : (2 : ℚ) ^ 1023 ≠ 0 := by positivity
      have h2 : (2 : ℚ) ^ 51 ≠ 0 := by positivity
      generalize (2 : ℚ) ^ 1023 = T at *
      generalize (2 : ℚ) ^ 51 = U at *
      have e3 : (4503599627370496 : ℚ) = U * 2 := by rw [mul_comm, ← e2]; norm_num
      field_simp
      rw [e3, pow_succ]; ring

theorem lit_negOne : (FloatOps.lit (-1.0) : F64) = F64.round (-1) false := by
  show F64.round _ _ = _
  norm_num

theorem new_eq (v : F64) : FiniteAboveNegOne.new v = if F64.ltb (F64.round (-1) false) v && F64.isFinite v then some ⟨v⟩ else none := by
  unfold FiniteAboveNegOne.new
  rw [lit_negOne]; rfl

theorem new_valid {v : F64} (h : Valid v) : FiniteAboveNegOne.new v = some ⟨v⟩ := by
  rw [new_eq, if_pos]
  rw [Bool.and_eq_true, ltb_finite val_negOne.2 h.1, val_negOne.1]
  exact ⟨h.2, h.1⟩

theorem new_invalid {v : F64} (h : ¬ Valid v) : FiniteAboveNegOne.new v = none := by
  rw [new_eq, if_neg]
  intro hc
  rw [Bool.and_eq_true] at hc
  rw [ltb_finite val_negOne.2 hc.2, val_negOne.1] at hc
  exact h ⟨hc.2, hc.1⟩

/-- C01: `new` succeeds exactly on the bit patterns that denote a number above -1 (in particular not on NaN and
infinities), and then stores the argument bit for bit. -/
theorem C01_new (b : ℕ) (hb : b < 2 ^ 64) :
    FiniteAboveNegOne.new (ofBits b) =
      match decode b with
      | .nan => none
      | .infinity _ => none
      | .number q => if -1 < q then some ⟨ofBits b⟩ else none := by
  have h := decode_ofBits b hb
  cases hd : decode b with
  | nan =>
    rw [hd] at h
    apply new_invalid
    intro hv
    have := isNaN_of_finite hv.1
    simp_all
  | infinity s =>
    rw [hd] at h
    apply new_invalid
    intro hv
    have := isInf_of_finite hv.1
    simp_all
  | number q =>
    rw [hd] at h
    simp only at h ⊢
    by_cases hq : -1 < q
    · rw [if_pos hq]; exact new_valid ⟨h.1, by rw [h.2]; exact hq⟩
    · rw [if_neg hq]; exact new_invalid (fun hv => hq (by rw [← h.2]; exact hv.2))

/-- C01: `get` returns the accepted argument unchanged. -/
theorem C01_get (v : F64) (x : FiniteAboveNegOne F64) (h : FiniteAboveNegOne.new v = some x) : x.get = v := by
  by_cases hv : Valid v
  · rw [new_valid hv] at h; rw [← Option.some.inj h]; rfl
  · rw [new_invalid hv] at h; exact absurd h (by simp)

omit L in
/-- every `F64` is the decoding of a 64 bit pattern, so C01 covers all of them -/
theorem C01_all_patterns (v : F64) : ∃ b, b < 2 ^ 64 ∧ ofBits b = v := by
  refine ⟨(if v.sign then 2 ^ 63 else 0) + v.mag, ?_, ?_⟩
  · have := v.lt_mag; split <;> omega
  · have := v.lt_mag
    rcases v with ⟨s, m, hm⟩
    unfold ofBits
    cases s <;> simp <;> omega

/-- infinity too has a bit pattern -/
example : ∃ b, b < 2 ^ 64 ∧ ofBits b = F64.inf true := C01_all_patterns _

/-- `-0.0` (sign bit only) is accepted and kept -/
example : FiniteAboveNegOne.new (ofBits 0x8000000000000000) = some ⟨F64.zero true⟩ := by
  have h := C01_new (L := L) 0x8000000000000000 (by norm_num)
  have hd : decode 0x8000000000000000 = .number 0 := by norm_num [decode]
  rw [hd] at h
  rw [h]; norm_num; rfl

/-- the float just above -1 is accepted, -1 itself is not -/
example : FiniteAboveNegOne.new (ofBits 0xBFEFFFFFFFFFFFFF) = some ⟨ofBits 0xBFEFFFFFFFFFFFFF⟩ ∧
    FiniteAboveNegOne.new (ofBits 0xBFF0000000000000) = none := by
  refine ⟨?_, ?_⟩
  · have h := C01_new (L := L) 0xBFEFFFFFFFFFFFFF (by norm_num)
    have hd : decode 0xBFEFFFFFFFFFFFFF = .number (-(1 - 1 / 2 ^ 53)) := by norm_num [decode]
    rw [hd] at h
    rw [h]; norm_num
  · have h := C01_new (L := L) 0xBFF0000000000000 (by norm_num)
    have hd : decode 0xBFF0000000000000 = .number (-1) := by norm_num [decode]
    rw [hd] at h
    rw [h]; norm_num

/-! ## C02 -/

/-- Values a program can obtain through the safe API of the type. -/
inductive Reachable {ε : Type} (parse : String → Except ε F64) : FiniteAboveNegOne F64 → Prop
  | new {v x} (h : FiniteAboveNegOne.new v = some x) : Reachable parse x
  | default : Reachable parse FiniteAboveNegOne.default
  | tryFrom {v x} (h : FiniteAboveNegOne.tryFrom v = .ok x) : Reachable parse x
  | fromStr {s x} (h : FiniteAboveNegOne.fromStr parse s = .ok x) : Reachable parse x
  | add {x y r} (hx : Reachable parse x) (h : x.checkedAdd y = some r) : Reachable parse r
  | sub {x y r} (hx : Reachable parse x) (h : x.checkedSub y = some r) : Reachable parse r
  | mul {x y r} (hx : Reachable parse x) (h : x.checkedMul y = some r) : Reachable parse r
  | div {x y r} (hx : Reachable parse x) (h : x.checkedDiv y = some r) : Reachable parse r
  | pow {x y r} (hx : Reachable parse x) (h : x.checkedPow y = some r) : Reachable parse r

theorem valid_of_new {v : F64} {x : FiniteAboveNegOne F64} (h : FiniteAboveNegOne.new v = some x) : Valid x.val := by
  by_cases hv : Valid v
  · rw [new_valid hv] at h; injection h with h; rw [← h]; exact hv
  · rw [new_invalid hv] at h; exact absurd h (by simp)

theorem valid_of_tryFrom {v : F64} {x : FiniteAboveNegOne F64} (h : FiniteAboveNegOne.tryFrom v = .ok x) : Valid x.val := by
  unfold FiniteAboveNegOne.tryFrom at h
  split at h
  · rename_i y hy; injection h with h; rw [← h]; exact valid_of_new hy
  · exact absurd h (by simp)

/-- C02: every reachable value is finite and above -1, for every parser and every `pow`. -/
theorem C02_reachable_valid {ε : Type} (parse : String → Except ε F64) (x : FiniteAboveNegOne F64)
    (h : Reachable parse x) : x.get.isFinite = true ∧ -1 < x.get.val := by
  show Valid x.val
  cases h with
  | new h => exact valid_of_new h
  | default =>
    have : (FiniteAboveNegOne.default : FiniteAboveNegOne F64).val = F64.zero false := by
      show F64.round _ _ = _
      norm_num [round_zero]
    rw [this]
    exact ⟨zero_isFinite _, by rw [val_zero]; norm_num⟩
  | tryFrom h => exact valid_of_tryFrom h
  | @fromStr s _ h =>
    unfold FiniteAboveNegOne.fromStr at h
    split at h
    · exact absurd h (by simp)
    · rename_i v hv
      split at h
      · rename_i y hy; injection h with h; rw [← h]; exact valid_of_tryFrom hy
      · exact absurd h (by simp)
  | add _ h => exact valid_of_new h
  | sub _ h => exact valid_of_new h
  | mul _ h => exact valid_of_new h
  | div _ h => exact valid_of_new h
  | pow _ h => exact valid_of_new h

/-- and every valid value is reachable, so the invariant is exact -/
theorem C02_exact {ε : Type} (parse : String → Except ε F64) (v : F64) :
    Reachable parse ⟨v⟩ ↔ v.isFinite = true ∧ -1 < v.val :=
  ⟨fun h => C02_reachable_valid parse _ h, fun h => .new (new_valid h)⟩

/-- zero of either sign is reachable, infinity is not -/
example (parse : String → Except Unit F64) : Reachable parse ⟨F64.zero true⟩ ∧ ¬ Reachable parse ⟨F64.inf false⟩ := by
  rw [C02_exact, C02_exact]
  exact ⟨⟨zero_isFinite _, by rw [val_zero]; norm_num⟩, fun h => absurd h.1 (by decide)⟩

/-! ## C03 -/

theorem new_rounded {q : ℚ} {zs : Bool} {r : F64} (h : RoundedResult q zs r) :
    FiniteAboveNegOne.new (F64.round q zs) = if overflowThreshold ≤ |q| then none else if -1 < r.val then some ⟨r⟩ else none := by
  rw [← roundedResult_eq h]
  have hfin : r.isFinite = true ↔ ¬ overflowThreshold ≤ |q| := by
    rcases h with ⟨h0, h⟩ | ⟨h0, -, ⟨h1, h2⟩ | ⟨h1, h2, -⟩⟩
    · rw [h, h0]; simp only [zero_isFinite, abs_zero, true_iff, not_le]
      unfold overflowThreshold; norm_num
    · constructor
      · intro hf; rw [isInf_of_finite hf] at h2; exact absurd h2 (by simp)
      · intro hn; exact absurd h1 hn
    · exact ⟨fun _ => not_le.2 h1, fun _ => h2⟩
  by_cases ho : overflowThreshold ≤ |q|
  · rw [if_pos ho]; exact new_invalid (fun hv => (hfin.1 hv.1) ho)
  · rw [if_neg ho]
    by_cases hl : -1 < r.val
    · rw [if_pos hl]; exact new_valid ⟨hfin.2 ho, hl⟩
    · rw [if_neg hl]; exact new_invalid (fun hv => hl hv.2)

omit L in
theorem add_nonfinite {x y : F64} (hx : x.isFinite = true) (hy : y.isFinite = false) : (F64.add x y).isFinite = false := by
  unfold F64.add
  rw [isNaN_of_finite hx, isInf_of_finite hx]
  cases hn : y.isNaN
  · have hi : y.isInf = true := by
      simp only [isFinite, isNaN, isInf, decide_eq_true_eq, decide_eq_false_iff_not] at *; omega
    simp [hi, hy]
  · simp; decide

omit L in
theorem val_neg (y : F64) : (F64.neg y).val = -y.val := by
  cases hs : y.sign
  · rw [val_of_pos hs, val_of_neg (by simp [F64.neg, hs])]; rfl
  · rw [val_of_neg hs, val_of_pos (by simp [F64.neg, hs]), neg_neg]; rfl

/-- C03, addition: for a valid `x` and any `y`: NaN or infinite `y` gives `None`; otherwise the result is decided by
the correctly rounded sum `r`. -/
theorem C03_checked_add (x : FiniteAboveNegOne F64) (hx : x.val.isFinite = true) (y : F64) :
    (y.isFinite = false → x.checkedAdd y = none) ∧
    (y.isFinite = true → ∃ r, RoundedResult (x.val.val + y.val) (x.val.sign && y.sign) r ∧
      x.checkedAdd y = if overflowThreshold ≤ |x.val.val + y.val| then none else if -1 < r.val then some ⟨r⟩ else none) := by
  refine ⟨fun hy => new_invalid fun hv => ?_, fun hy => ⟨_, round_rounded _ _, ?_⟩⟩
  · have := add_nonfinite hx hy
    exact absurd hv.1 (by show (F64.add x.val y).isFinite ≠ true; rw [this]; simp)
  · rw [← new_rounded (round_rounded _ _)]
    show FiniteAboveNegOne.new (F64.add x.val y) = _
    unfold F64.add
    rw [isNaN_of_finite hx, isInf_of_finite hx, isNaN_of_finite hy, isInf_of_finite hy]
    rfl

/-- C03, subtraction -/
theorem C03_checked_sub (x : FiniteAboveNegOne F64) (hx : x.val.isFinite = true) (y : F64) :
    (y.isFinite = false → x.checkedSub y = none) ∧
    (y.isFinite = true → ∃ r, RoundedResult (x.val.val - y.val) (x.val.sign && !y.sign) r ∧
      x.checkedSub y = if overflowThreshold ≤ |x.val.val - y.val| then none else if -1 < r.val then some ⟨r⟩ else none) := by
  have h := C03_checked_add x hx (F64.neg y)
  have hf : (F64.neg y).isFinite = y.isFinite := rfl
  rw [hf, val_neg, ← sub_eq_add_neg] at h
  exact h

/-- C03, multiplication -/
theorem C03_checked_mul (x : FiniteAboveNegOne F64) (hx : x.val.isFinite = true) (y : F64) :
    (y.isFinite = false → x.checkedMul y = none) ∧
    (y.isFinite = true → ∃ r, RoundedResult (x.val.val * y.val) (x.val.sign != y.sign) r ∧
      x.checkedMul y = if overflowThreshold ≤ |x.val.val * y.val| then none else if -1 < r.val then some ⟨r⟩ else none) := by
  refine ⟨fun hy => new_invalid fun hv => ?_, fun hy => ⟨_, round_rounded _ _, ?_⟩⟩
  · have : (F64.mul x.val y).isFinite = false := by
      unfold F64.mul
      rw [isNaN_of_finite hx, isInf_of_finite hx]
      cases hn : y.isNaN
      · have hi : y.isInf = true := by
          simp only [isFinite, isNaN, isInf, decide_eq_true_eq, decide_eq_false_iff_not] at *; omega
        simp only [hi, Bool.or_self, Bool.false_eq_true, if_false, if_true]
        split
        · decide
        · cases (x.val.sign != y.sign) <;> decide
      · simp; decide
    exact absurd hv.1 (by show (F64.mul x.val y).isFinite ≠ true; rw [this]; simp)
  · rw [← new_rounded (round_rounded _ _)]
    show FiniteAboveNegOne.new (F64.mul x.val y) = _
    unfold F64.mul
    rw [isNaN_of_finite hx, isInf_of_finite hx, isNaN_of_finite hy, isInf_of_finite hy]
    rfl

/-- C03, division: NaN and zero divisors give `None`, an infinite divisor gives a signed zero, every other divisor
the correctly rounded quotient if in range. -/
theorem C03_checked_div (x : FiniteAboveNegOne F64) (hx : x.val.isFinite = true) (y : F64) :
    (y.isNaN = true → x.checkedDiv y = none) ∧
    (y.isInf = true → x.checkedDiv y = some ⟨F64.zero (x.val.sign != y.sign)⟩) ∧
    (y.isZero = true → x.checkedDiv y = none) ∧
    (y.isFinite = true → y.isZero = false → ∃ r, RoundedResult (x.val.val / y.val) (x.val.sign != y.sign) r ∧
      x.checkedDiv y = if overflowThreshold ≤ |x.val.val / y.val| then none else if -1 < r.val then some ⟨r⟩ else none) := by
  refine ⟨fun hy => new_invalid fun hv => ?_, fun hy => ?_, fun hy => new_invalid fun hv => ?_,
    fun hy hz => ⟨_, round_rounded _ _, ?_⟩⟩
  · have : (F64.div x.val y) = F64.nan := by unfold F64.div; simp [hy]
    exact absurd hv.1 (by show (F64.div x.val y).isFinite ≠ true; rw [this]; decide)
  · show FiniteAboveNegOne.new (F64.div x.val y) = _
    have hn : y.isNaN = false := by
      simp only [isNaN, isInf, decide_eq_true_eq, decide_eq_false_iff_not] at *; omega
    have : F64.div x.val y = F64.zero (x.val.sign != y.sign) := by
      unfold F64.div
      rw [isNaN_of_finite hx, isInf_of_finite hx, hn, hy]; rfl
    rw [this]
    exact new_valid ⟨zero_isFinite _, by rw [val_zero]; norm_num⟩
  · have hn : y.isNaN = false := by
      unfold isNaN; unfold isZero at hy
      rw [decide_eq_true_eq] at hy; rw [decide_eq_false_iff_not, hy]; simp
    have hi : y.isInf = false := by
      unfold isInf; unfold isZero at hy
      rw [decide_eq_true_eq] at hy; rw [decide_eq_false_iff_not, hy]; decide
    have : (F64.div x.val y).isFinite = false := by
      unfold F64.div
      rw [isNaN_of_finite hx, isInf_of_finite hx, hn, hi, hy]
      simp only [Bool.or_self, Bool.false_eq_true, if_false, if_true]
      split
      · decide
      · cases (x.val.sign != y.sign) <;> decide
    exact absurd hv.1 (by show (F64.div x.val y).isFinite ≠ true; rw [this]; simp)
  · rw [← new_rounded (round_rounded _ _)]
    show FiniteAboveNegOne.new (F64.div x.val y) = _
    unfold F64.div
    rw [isNaN_of_finite hx, isInf_of_finite hx, isNaN_of_finite hy, isInf_of_finite hy, hz]
    rfl

omit L in
/-- the rounding specification of C03 has exactly one solution, so the theorems above determine the results -/
theorem C03_result_unique (q : ℚ) (zs : Bool) : ∃! r, RoundedResult q zs r :=
  ⟨_, round_rounded q zs, fun _ h => roundedResult_eq h⟩

example : ∃! r, RoundedResult (1 / 3) false r := C03_result_unique _ _

/-- exact cases are exact: when the exact sum is a finite float above -1 it is returned -/
theorem C03_add_exact (x : FiniteAboveNegOne F64) (hx : x.val.isFinite = true) (y r : F64) (hy : y.isFinite = true)
    (hr : r.isFinite = true) (h0 : r.val ≠ 0) (h : x.val.val + y.val = r.val) (h1 : -1 < r.val) :
    x.checkedAdd y = some ⟨r⟩ := by
  have hval : x.checkedAdd y = FiniteAboveNegOne.new (F64.add x.val y) := rfl
  rw [hval]
  have : F64.add x.val y = r := by
    unfold F64.add
    rw [isNaN_of_finite hx, isInf_of_finite hx, isNaN_of_finite hy, isInf_of_finite hy, h]
    exact round_exact hr h0 _
  rw [this]; exact new_valid ⟨hr, h1⟩

/-- `0.5 + 0.25 = 0.75` exactly -/
example : (⟨F64.round (1 / 2) false⟩ : FiniteAboveNegOne F64).checkedAdd (F64.round (1 / 4) false) = some ⟨F64.round (3 / 4) false⟩ :=
  C03_add_exact _ (by decide +kernel) _ _ (by decide +kernel) (by decide +kernel) (by decide +kernel) (by decide +kernel) (by decide +kernel)

/-! ## C04 -/

/-- C04: `try_from` -/
theorem C04_try_from (v : F64) :
    (Valid v → ∃ x, FiniteAboveNegOne.tryFrom v = .ok x ∧ x.toF64 = v) ∧
    (¬ Valid v → FiniteAboveNegOne.tryFrom v = .error .mk) := by
  unfold FiniteAboveNegOne.tryFrom
  exact ⟨fun h => ⟨⟨v⟩, by rw [new_valid h], rfl⟩, fun h => by rw [new_invalid h]⟩

example : FiniteAboveNegOne.tryFrom F64.nan = .error .mk := (C04_try_from _).2 fun h => absurd h.1 (by decide)

/-- C04: `from_str` for every parser: exactly one of three outcomes -/
theorem C04_from_str {ε : Type} (parse : String → Except ε F64) (s : String) :
    (∀ e, FiniteAboveNegOne.fromStr parse s = .error (.parseError e) ↔ parse s = .error e) ∧
    (FiniteAboveNegOne.fromStr parse s = .error (.invalidValue .mk) ↔ ∃ v, parse s = .ok v ∧ ¬ Valid v) ∧
    (∀ x, FiniteAboveNegOne.fromStr parse s = .ok x ↔ parse s = .ok x.toF64 ∧ Valid x.toF64) := by
  unfold FiniteAboveNegOne.fromStr
  cases hp : parse s with
  | error e =>
    refine ⟨fun e' => by simp, by simp, by simp⟩
  | ok v =>
    by_cases hv : Valid v
    · obtain ⟨x, hx, hxv⟩ := (C04_try_from v).1 hv
      have hxv' : x = ⟨v⟩ := by cases x; simp_all [FiniteAboveNegOne.toF64]
      subst hxv'
      simp only [hx]
      refine ⟨by simp, ?_, fun x => ?_⟩
      · simp [hv]
      · constructor
        · intro h; injection h with h; rw [← h]; exact ⟨rfl, hv⟩
        · rintro ⟨h, -⟩; injection h with h; rw [h]; rfl
    · simp only [(C04_try_from v).2 hv]
      refine ⟨by simp, by simp [hv], fun x => ?_⟩
      simp only [reduceCtorEq, false_iff, not_and]
      intro h; injection h with h; rw [← h]; exact hv

/-! ## C05 -/

/-- C05: on valid parameters `==` is equality of the numbers, and `partial_cmp` is their comparison (never `None`). -/
theorem C05_comparison (x y : FiniteAboveNegOne F64) (hx : Valid x.val) (hy : Valid y.val) :
    (x.eq y = true ↔ x.val.val = y.val.val) ∧ x.partialCmp y = some (compare x.val.val y.val.val) := by
  refine ⟨eqb_finite hx.1 hy.1, ?_⟩
  unfold FiniteAboveNegOne.partialCmp
  show (if F64.ltb _ _ = true then _ else if F64.eqb _ _ = true then _ else if F64.ltb _ _ = true then _ else _) = _
  rcases lt_trichotomy x.val.val y.val.val with h | h | h
  · rw [if_pos ((ltb_finite hx.1 hy.1).2 h), compare_lt_iff_lt.2 h]
  · rw [if_neg, if_pos ((eqb_finite hx.1 hy.1).2 h), compare_eq_iff_eq.2 h]
    rw [ltb_finite hx.1 hy.1, h]; exact lt_irrefl _
  · rw [if_neg, if_neg, if_pos ((ltb_finite hy.1 hx.1).2 h), compare_gt_iff_gt.2 h]
    · rw [eqb_finite hx.1 hy.1]; exact h.ne'
    · rw [ltb_finite hx.1 hy.1]; exact not_lt.2 h.le

/-- C05: `==` is an equivalence relation on valid parameters. -/
theorem C05_equivalence (x y z : FiniteAboveNegOne F64) (hx : Valid x.val) (hy : Valid y.val) (hz : Valid z.val) :
    x.eq x = true ∧ (x.eq y = y.eq x) ∧ (x.eq y = true → y.eq z = true → x.eq z = true) := by
  refine ⟨(C05_comparison x x hx hx).1.2 rfl, ?_, ?_⟩
  · rw [Bool.eq_iff_iff, (C05_comparison x y hx hy).1, (C05_comparison y x hy hx).1]; exact eq_comm
  · rw [(C05_comparison x y hx hy).1, (C05_comparison y z hy hz).1, (C05_comparison x z hx hz).1]; exact Eq.trans

example : (⟨F64.zero true⟩ : FiniteAboveNegOne F64).eq ⟨F64.zero true⟩ = true :=
  have h : ∀ s, Valid (F64.zero s) := fun s => ⟨zero_isFinite _, by rw [val_zero]; norm_num⟩
  (C05_equivalence ⟨F64.zero true⟩ ⟨F64.zero false⟩ ⟨F64.zero true⟩ (h _) (h _) (h _)).1

/-- the statement is not vacuous and not bitwise: `-0.0` and `0.0` are different valid values that compare equal -/
example : Valid (F64.zero true) ∧ Valid (F64.zero false) ∧ F64.zero true ≠ F64.zero false ∧
    (⟨F64.zero true⟩ : FiniteAboveNegOne F64).eq ⟨F64.zero false⟩ = true := by
  have h : ∀ s, Valid (F64.zero s) := fun s => ⟨zero_isFinite _, by rw [val_zero]; norm_num⟩
  exact ⟨h _, h _, by decide, (C05_comparison _ _ (h _) (h _)).1.2 ((val_zero true).trans (val_zero false).symm)⟩

/-! ## C06 -/

/-- C06: printing and parsing round-trips, given that the standard library's `f64` formatting and parsing do
on finite values.  `fmt` stands for any of the three formatters. -/
theorem C06_round_trip {ε : Type} (parse : String → Except ε F64) (fmt : F64 → String)
    (hstd : ∀ v : F64, v.isFinite = true → parse (fmt v) = .ok v)
    (x : FiniteAboveNegOne F64) (hx : Reachable parse x) :
    FiniteAboveNegOne.fromStr parse (x.format fmt) = .ok x := by
  have hv := C02_reachable_valid parse x hx
  rw [(C04_from_str parse _).2.2]
  exact ⟨hstd _ hv.1, hv⟩

/-- formatters and parsers satisfying the assumption exist -/
example : ∃ (parse : String → Except Unit F64) (fmt : F64 → String), ∀ v : F64, parse (fmt v) = .ok v := by
  refine ⟨fun s => .ok (ofBits s.length), fun v => String.ofList (List.replicate ((if v.sign then 2 ^ 63 else 0) + v.mag) 'a'), ?_⟩
  intro v
  have h := v.lt_mag
  rcases v with ⟨s, m, hm⟩
  simp only [String.length_ofList, List.length_replicate]
  congr 1
  unfold ofBits
  cases s <;> simp <;> omega

/-! ## C07 -/

omit L in
/-- C07 is false: the derived deserialisers accept NaN, infinities and values at or below -1. -/
theorem C07_refuted : ¬ ∀ payload : F64, Valid (FiniteAboveNegOne.deserialize payload).get := by
  intro h
  exact absurd (h F64.nan).1 (by decide)

/-- what does hold: deserialisation keeps the invariant exactly when the payload already satisfied it -/
theorem C07_exactly_partial (payload : F64) :
    Valid (FiniteAboveNegOne.deserialize payload).get ↔ FiniteAboveNegOne.new payload = some (FiniteAboveNegOne.deserialize payload) := by
  constructor
  · intro h; exact new_valid h
  · intro h; exact valid_of_new h

example : Valid (FiniteAboveNegOne.deserialize (F64.round 2 false)).get :=
  (C07_exactly_partial _).2 (new_valid ⟨by decide +kernel, by decide +kernel⟩)

omit L in
/-- concrete bad payloads: NaN, +∞, −∞, −1, −2 -/
theorem C07_bad_payloads : ¬ Valid (FiniteAboveNegOne.deserialize F64.nan).get ∧
    ¬ Valid (FiniteAboveNegOne.deserialize (F64.inf false)).get ∧ ¬ Valid (FiniteAboveNegOne.deserialize (F64.inf true)).get ∧
    ¬ Valid (FiniteAboveNegOne.deserialize (F64.round (-1) false)).get := by
  refine ⟨fun h => absurd h.1 (by decide), fun h => absurd h.1 (by decide), fun h => absurd h.1 (by decide), fun h => ?_⟩
  have := h.2
  change -1 < (F64.round (-1) false).val at this
  rw [val_negOne.1] at this
  exact lt_irrefl _ this

/-! ## one half, step by step -/

/-- `new` of one half returns one half -/
example : (⟨F64.round (1 / 2) false⟩ : FiniteAboveNegOne F64).get = F64.round (1 / 2) false :=
  C01_get (L := L) _ _ (new_valid ⟨by decide +kernel, by decide +kernel⟩)

/-- one half can be reached, with any parser, and is therefore valid -/
example (parse : String → Except Unit F64) : -1 < (F64.round (1 / 2) false).val :=
  (C02_reachable_valid parse ⟨F64.round (1 / 2) false⟩ ((C02_exact parse _).2 ⟨by decide +kernel, by decide +kernel⟩)).2

/-- one half and the float of a third: the sum and the product are the rounded ones; infinite and zero operands -/
example : (⟨F64.round (1 / 2) false⟩ : FiniteAboveNegOne F64).checkedAdd (F64.round (1 / 3) false) =
      some ⟨F64.round ((F64.round (1 / 2) false).val + (F64.round (1 / 3) false).val) false⟩ ∧
    (⟨F64.round (1 / 2) false⟩ : FiniteAboveNegOne F64).checkedMul (F64.round (1 / 3) false) =
      some ⟨F64.round ((F64.round (1 / 2) false).val * (F64.round (1 / 3) false).val) false⟩ ∧
    (⟨F64.round (1 / 2) false⟩ : FiniteAboveNegOne F64).checkedSub (F64.inf true) = none ∧
    (⟨F64.round (1 / 2) false⟩ : FiniteAboveNegOne F64).checkedDiv (F64.zero true) = none ∧
    (⟨F64.round (1 / 2) false⟩ : FiniteAboveNegOne F64).checkedDiv (F64.inf true) = some ⟨F64.zero true⟩ := by
  have hx : (F64.round (1 / 2) false).isFinite = true := by decide +kernel
  refine ⟨?_, ?_, (C03_checked_sub ⟨_⟩ hx _).1 (by decide +kernel),
    (C03_checked_div ⟨_⟩ hx _).2.2.1 (by decide +kernel), ?_⟩
  · obtain ⟨r, h1, h2⟩ := (C03_checked_add ⟨F64.round (1 / 2) false⟩ hx (F64.round (1 / 3) false)).2 (by decide +kernel)
    have e : ((F64.round (1 / 2) false).sign && (F64.round (1 / 3) false).sign) = false := by decide +kernel
    rw [h2, roundedResult_eq h1, if_neg (by decide +kernel), if_pos (by decide +kernel), e]
  · obtain ⟨r, h1, h2⟩ := (C03_checked_mul ⟨F64.round (1 / 2) false⟩ hx (F64.round (1 / 3) false)).2 (by decide +kernel)
    have e : ((F64.round (1 / 2) false).sign != (F64.round (1 / 3) false).sign) = false := by decide +kernel
    rw [h2, roundedResult_eq h1, if_neg (by decide +kernel), if_pos (by decide +kernel), e]
  · have e : ((F64.round (1 / 2) false).sign != (F64.inf true).sign) = true := by decide +kernel
    rw [(C03_checked_div ⟨F64.round (1 / 2) false⟩ hx (F64.inf true)).2.1 (by decide +kernel), e]

/-- one half survives printing and parsing -/
example (parse : String → Except Unit F64) (fmt : F64 → String) (hstd : ∀ v : F64, v.isFinite = true → parse (fmt v) = .ok v) :
    FiniteAboveNegOne.fromStr parse (FiniteAboveNegOne.format fmt ⟨F64.round (1 / 2) false⟩) = .ok ⟨F64.round (1 / 2) false⟩ :=
  C06_round_trip parse fmt hstd _ ((C02_exact parse _).2 ⟨by decide +kernel, by decide +kernel⟩)

end GaussQuad.Props
