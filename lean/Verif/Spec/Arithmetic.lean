import Verif.Spec.IEEE

/-!
# The arithmetic of IEEE 754 on all bit patterns, special values included

The operands are given as 64 bits and read by `decode`; the sign bit is only looked at for the sign of a zero or an infinity.
-/

namespace GaussQuad.Spec
open F64

/-- sign bit of a 64-bit pattern -/
def signBit (b : ℕ) : Bool := decide (2 ^ 63 ≤ b)

/-- IEEE 754 addition: infinities of opposite signs have no sum; an exact zero sum is positive unless both operands carry a minus sign -/
def IsSum (a b : ℕ) (r : F64) : Prop :=
  match decode a, decode b with
  | .nan, _ => r.isNaN = true
  | _, .nan => r.isNaN = true
  | .infinity s, .infinity t => if s = t then r = inf s else r.isNaN = true
  | .infinity s, .number _ => r = inf s
  | .number _, .infinity t => r = inf t
  | .number p, .number q => RoundedResult (p + q) (signBit a && signBit b) r

/-- IEEE 754 subtraction -/
def IsDifference (a b : ℕ) (r : F64) : Prop :=
  match decode a, decode b with
  | .nan, _ => r.isNaN = true
  | _, .nan => r.isNaN = true
  | .infinity s, .infinity t => if s = t then r.isNaN = true else r = inf s
  | .infinity s, .number _ => r = inf s
  | .number _, .infinity t => r = inf (!t)
  | .number p, .number q => RoundedResult (p - q) (signBit a && !signBit b) r

/-- IEEE 754 multiplication: zero times infinity is not a number; the sign of the result is the exclusive or of the signs -/
def IsProduct (a b : ℕ) (r : F64) : Prop :=
  match decode a, decode b with
  | .nan, _ => r.isNaN = true
  | _, .nan => r.isNaN = true
  | .infinity s, .infinity t => r = inf (s != t)
  | .infinity s, .number q => if q = 0 then r.isNaN = true else r = inf (s != signBit b)
  | .number p, .infinity t => if p = 0 then r.isNaN = true else r = inf (signBit a != t)
  | .number p, .number q => RoundedResult (p * q) (signBit a != signBit b) r

/-- IEEE 754 division: 0/0 and infinity by infinity are not numbers, other numbers by zero are infinite -/
def IsQuotient (a b : ℕ) (r : F64) : Prop :=
  match decode a, decode b with
  | .nan, _ => r.isNaN = true
  | _, .nan => r.isNaN = true
  | .infinity _, .infinity _ => r.isNaN = true
  | .infinity s, .number _ => r = inf (s != signBit b)
  | .number _, .infinity t => r = zero (signBit a != t)
  | .number p, .number q =>
    if q = 0 then (if p = 0 then r.isNaN = true else r = inf (signBit a != signBit b))
    else RoundedResult (p / q) (signBit a != signBit b) r

end GaussQuad.Spec
