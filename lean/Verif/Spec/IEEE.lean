import Mathlib.Data.Rat.Defs
import Mathlib.Algebra.Order.Ring.Rat
import Mathlib.Algebra.Order.Group.Unbundled.Abs
import Verif.Model.F64

/-!
# IEEE-754 specification, independent of the model's rounding function

`decode` follows the interchange format of the standard field by field; `CorrectlyRounded` is the
nearest-even rounding of the standard stated as an extremal property (no algorithm).
-/

namespace GaussQuad.Spec
open F64

/-- meaning of a bit pattern -/
inductive Datum where
  | nan
  | infinity (negative : Bool)
  | number (q : ℚ)

/-- IEEE-754 binary64 interchange format: sign bit 63, exponent bits 62..52 biased by 1023, fraction bits 51..0 -/
def decode (b : ℕ) : Datum :=
  let s : ℕ := b / 2 ^ 63 % 2
  let e : ℕ := b / 2 ^ 52 % 2 ^ 11
  let m : ℕ := b % 2 ^ 52
  if e = 2047 then (if m = 0 then .infinity (s == 1) else .nan)
  else if e = 0 then .number ((-1) ^ s * (m : ℚ) * 2⁻¹ ^ 1074)
  else .number ((-1) ^ s * (1 + (m : ℚ) / 2 ^ 52) * (2 : ℚ) ^ e * 2⁻¹ ^ 1023)

/-- Results at least this large in magnitude overflow: the midpoint between the largest finite number
`2^1024 - 2^971` and `2^1024`. -/
def overflowThreshold : ℚ := 2 ^ 1024 - 2 ^ 970

/-- `r` is the round-to-nearest, ties-to-even result for the non-zero exact value `q`:
above the overflow threshold it is the infinity with the sign of `q`; otherwise it is finite, has the sign of `q`,
no finite value is closer to `q`, and if another finite value is equally close then the last bit of `r` is 0. -/
def CorrectlyRounded (q : ℚ) (r : F64) : Prop :=
  r.sign = decide (q < 0) ∧
  ((overflowThreshold ≤ |q| ∧ r.isInf = true) ∨
   (|q| < overflowThreshold ∧ r.isFinite = true ∧
     (∀ y : F64, y.isFinite = true → |q - r.val| ≤ |q - y.val|) ∧
     (∀ y : F64, y.isFinite = true → y.val ≠ r.val → |q - r.val| = |q - y.val| → r.mag % 2 = 0)))

/-- result of an operation with exact value `q`; an exact zero gets the sign `zs` -/
def RoundedResult (q : ℚ) (zs : Bool) (r : F64) : Prop :=
  (q = 0 ∧ r = zero zs) ∨ (q ≠ 0 ∧ CorrectlyRounded q r)

/-- `<` of the standard on decoded values: NaN is unordered -/
def Datum.Less : Datum → Datum → Prop
  | .number p, .number q => p < q
  | .number _, .infinity s => s = false
  | .infinity s, .number _ => s = true
  | .infinity s, .infinity t => s = true ∧ t = false
  | _, _ => False

/-- `==` of the standard on decoded values: the two zeros are equal, NaN equals nothing -/
def Datum.Equal : Datum → Datum → Prop
  | .number p, .number q => p = q
  | .infinity s, .infinity t => s = t
  | _, _ => False

/-- the key of `f64::total_cmp` in the standard library (`left ^= (((left >> 63) as u64) >> 1) as i64`), on 64 bits -/
def totalCmpKey (b : BitVec 64) : BitVec 64 := b ^^^ ((b.sshiftRight 63) >>> 1)

end GaussQuad.Spec
