import Verif.Model.Ops

/-!
# IEEE-754 binary64

`f64` as used by the crate (`core::primitive::f64`, every arithmetic expression in `/repo/src`).
A value is a sign bit and the remaining 63 bits ("magnitude bits", biased exponent followed by the mantissa).
`+ - * /` round the exact rational result to nearest, ties to even.
Simplification: every operation that yields NaN yields the canonical quiet NaN (Rust leaves sign and payload
unspecified).  `sin cos sqrt pow` are parameters (`Libm`), because std and libm differ.
-/

namespace GaussQuad

/-- binary64 value: sign bit and the other 63 bits as a number (every `f64` expression, e.g. /repo/src/legendre/mod.rs l.113-119) -/
structure F64 where
  sign : Bool
  mag : Nat
  lt_mag : mag < 2 ^ 63
  deriving DecidableEq

namespace F64

/-- magnitude bits of the infinities: biased exponent 2047, mantissa 0 (every `f64` expression, e.g. /repo/src/legendre/mod.rs l.113-119) -/
def infMag : Nat := 2047 * 2 ^ 52

/-- NaN: exponent all ones, mantissa non-zero (/repo/src/data_api.rs l.68) -/
def isNaN (x : F64) : Bool := decide (infMag < x.mag)
/-- ±∞ (every `f64` expression, e.g. /repo/src/legendre/mod.rs l.113-119) -/
def isInf (x : F64) : Bool := decide (x.mag = infMag)
/-- `f64::is_finite` (/repo/src/data_api.rs l.68) -/
def isFinite (x : F64) : Bool := decide (x.mag < infMag)
/-- ±0 (every `f64` expression, e.g. /repo/src/legendre/mod.rs l.113-119) -/
def isZero (x : F64) : Bool := decide (x.mag = 0)

/-- magnitude in units of `2^-1074` of the number with magnitude bits `k`: subnormals have no implicit bit
(every `f64` expression, e.g. /repo/src/legendre/mod.rs l.113-119) -/
def magInt (k : Nat) : Nat :=
  if k < 2 ^ 52 then k else (2 ^ 52 + k % 2 ^ 52) * 2 ^ (k / 2 ^ 52 - 1)

/-- the rational number represented by a finite value (junk for NaN and infinities) (every `f64` expression, e.g. /repo/src/legendre/mod.rs l.113-119) -/
def val (x : F64) : Rat :=
  (if x.sign then -(magInt x.mag : Rat) else (magInt x.mag : Rat)) / 2 ^ 1074

/-- canonical quiet NaN (every `f64` expression, e.g. /repo/src/legendre/mod.rs l.113-119) -/
def nan : F64 := ⟨false, infMag + 2 ^ 51, by decide⟩
/-- infinity with a sign (every `f64` expression, e.g. /repo/src/legendre/mod.rs l.113-119) -/
def inf (s : Bool) : F64 := ⟨s, infMag, by decide⟩
/-- zero with a sign (every `f64` expression, e.g. /repo/src/legendre/mod.rs l.113-119) -/
def zero (s : Bool) : F64 := ⟨s, 0, by decide⟩

/-- `A / B` rounded to the nearest integer, ties to even (every `f64` expression, e.g. /repo/src/legendre/mod.rs l.113-119) -/
def rne (A B : Nat) : Nat :=
  let q := A / B
  let r := A % B
  if 2 * r < B then q else if B < 2 * r then q + 1 else if q % 2 = 0 then q else q + 1

/-- magnitude bits of `A / B * 2^-1074` rounded to nearest even, exponent unbounded above
(every `f64` expression, e.g. /repo/src/legendre/mod.rs l.113-119) -/
def roundUnbounded (A B : Nat) : Nat :=
  let e := (A / B).log2 - 52
  e * 2 ^ 52 + rne A (B * 2 ^ e)

/-- magnitude bits of `A / B * 2^-1074` rounded to nearest even, overflowing to infinity
(every `f64` expression, e.g. /repo/src/legendre/mod.rs l.113-119) -/
def roundMag (A B : Nat) : Nat := min (roundUnbounded A B) infMag

theorem roundMag_lt (A B : Nat) : roundMag A B < 2 ^ 63 :=
  Nat.lt_of_le_of_lt (Nat.min_le_right _ _) (by decide)

/-- round a rational to binary64; `zeroSign` is the sign used when the exact result is zero
(every `f64` expression, e.g. /repo/src/legendre/mod.rs l.113-119) -/
def round (q : Rat) (zeroSign : Bool) : F64 :=
  if q = 0 then zero zeroSign
  else ⟨decide (q < 0), roundMag (q.num.natAbs * 2 ^ 1074) q.den, roundMag_lt _ _⟩

/-- `-x` (every `f64` expression, e.g. /repo/src/legendre/mod.rs l.113-119) -/
def neg (x : F64) : F64 := ⟨!x.sign, x.mag, x.lt_mag⟩

/-- `x + y` (every `f64` expression, e.g. /repo/src/legendre/mod.rs l.113-119) -/
def add (x y : F64) : F64 :=
  if x.isNaN || y.isNaN then nan
  else if x.isInf then (if y.isInf && (x.sign != y.sign) then nan else x)
  else if y.isInf then y
  else round (x.val + y.val) (x.sign && y.sign)

/-- `x - y` (every `f64` expression, e.g. /repo/src/legendre/mod.rs l.113-119) -/
def sub (x y : F64) : F64 := add x (neg y)

/-- `x * y` (every `f64` expression, e.g. /repo/src/legendre/mod.rs l.113-119) -/
def mul (x y : F64) : F64 :=
  if x.isNaN || y.isNaN then nan
  else if x.isInf then (if y.isZero then nan else inf (x.sign != y.sign))
  else if y.isInf then (if x.isZero then nan else inf (x.sign != y.sign))
  else round (x.val * y.val) (x.sign != y.sign)

/-- `x / y` (every `f64` expression, e.g. /repo/src/legendre/mod.rs l.113-119) -/
def div (x y : F64) : F64 :=
  if x.isNaN || y.isNaN then nan
  else if x.isInf then (if y.isInf then nan else inf (x.sign != y.sign))
  else if y.isInf then zero (x.sign != y.sign)
  else if y.isZero then (if x.isZero then nan else inf (x.sign != y.sign))
  else round (x.val / y.val) (x.sign != y.sign)

/-- position on the number line, in bit steps; `-0.0` and `0.0` coincide (/repo/src/data_api.rs l.68, /repo/src/math.rs l.119) -/
def key (x : F64) : Int := if x.sign then -(x.mag : Int) else (x.mag : Int)

/-- IEEE `x < y` (/repo/src/data_api.rs l.68, /repo/src/math.rs l.119) -/
def ltb (x y : F64) : Bool := !x.isNaN && !y.isNaN && decide (x.key < y.key)
/-- IEEE `x == y` (/repo/src/jacobi/mod.rs l.80-84) -/
def eqb (x y : F64) : Bool := !x.isNaN && !y.isNaN && decide (x.key = y.key)

/-- the signed integer `f64::total_cmp` compares: negative values have their magnitude bits inverted (/repo/src/golub_welsch.rs l.58) -/
def totalKey (x : F64) : Int := if x.sign then -(x.mag : Int) - 1 else (x.mag : Int)
/-- `x.total_cmp(&y) != Ordering::Greater` (/repo/src/golub_welsch.rs l.58) -/
def totalLeb (x y : F64) : Bool := decide (x.totalKey ≤ y.totalKey)

/-- the value with the given 64 bits (the 64 bits of an `f64`, /repo/src/data_api.rs l.31-39) -/
def ofBits (b : Nat) : F64 :=
  ⟨decide (2 ^ 63 ≤ b % 2 ^ 64), b % 2 ^ 63, Nat.mod_lt _ (by decide)⟩

end F64

/-- The math backend behind `/repo/src/math.rs` (`std` or `libm`): arbitrary functions. -/
class Libm where
  sin : F64 → F64
  cos : F64 → F64
  pow : F64 → F64 → F64
  sqrt : F64 → F64

/-- binary64 arithmetic with an arbitrary math backend (/repo/src/math.rs l.17-91) -/
instance f64Ops [L : Libm] : FloatOps F64 where
  add := F64.add
  sub := F64.sub
  mul := F64.mul
  div := F64.div
  sin := L.sin
  cos := L.cos
  pow := L.pow
  sqrt := L.sqrt
  lit := fun q => F64.round q false
  ofNat := fun n => F64.round n false
  pi := F64.ofBits 0x400921FB54442D18
  e := F64.ofBits 0x4005BF0A8B145769
  lt := F64.ltb
  feq := F64.eqb
  isFinite := F64.isFinite
  totalLe := F64.totalLeb
  sumInit := F64.zero true

end GaussQuad
