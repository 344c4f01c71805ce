import Verif.Model.F64
import Verif.Model.DataApi
import Mathlib.Data.Nat.Digits.Defs
import Mathlib.Algebra.Order.Ring.Rat
import Mathlib.Data.Rat.Lemmas

/-!
`str::parse::<f64>` and the formatting of an `f64` by `{}`, `{:e}` and `{:E}`: the two things of the standard library that the text forms of a parameter rest on
(/repo/src/data_api.rs l.43-62 and l.175-186).  They are not part of /repo; the definitions follow `core::num::dec2flt` and `core::num::flt2dec` and their documentation.
`Model/DataApi` takes both as parameters; here are the functions it is applied to in reality.

Simplifications: texts are lists of characters instead of UTF-8 bytes (every character that matters is ASCII); the exponent is an integer without bound (the library
stops counting at a value above 65536, which changes the result only for texts with hundreds of thousands of digits); the shortest digits are described
(`ShortestDigits`), not computed.
-/

namespace GaussQuad

/-- the two kinds of `core::num::ParseFloatError` (called at /repo/src/data_api.rs l.179) -/
inductive ParseFloatError where
  | empty
  | invalid
  deriving DecidableEq, Repr

namespace FloatText

/-- the number of a string of digits, read from the left (`parse_digits`) (called at /repo/src/data_api.rs l.179) -/
def digitsValue (s : List Char) : Nat := s.foldl (fun a c => 10 * a + (c.toNat - 48)) 0

/-- an optional sign (`true` for minus) and the rest (called at /repo/src/data_api.rs l.179) -/
def splitSign : List Char → Bool × List Char
  | '-' :: t => (true, t)
  | '+' :: t => (false, t)
  | t => (false, t)

/-- `parse_scientific`: optional sign and at least one digit, up to the end of the text (called at /repo/src/data_api.rs l.179) -/
def parseScientific (s : List Char) : Option Int :=
  let t := (splitSign s).2
  if !t.isEmpty && t.all Char.isDigit then some (if (splitSign s).1 then -(digitsValue t : Int) else digitsValue t) else none

/-- what may follow the digits (called at /repo/src/data_api.rs l.179) -/
def parseExponent : List Char → Option Int
  | [] => some 0
  | c :: t => if c = 'e' ∨ c = 'E' then parseScientific t else none

/-- the digits after an optional point and the rest (called at /repo/src/data_api.rs l.179) -/
def splitPoint : List Char → List Char × List Char
  | '.' :: t => (t.takeWhile Char.isDigit, t.dropWhile Char.isDigit)
  | t => ([], t)

/-- `parse_number`: digits, optional point and digits, optional exponent; the whole text has to be used (called at /repo/src/data_api.rs l.179) -/
def parseNumber (s : List Char) : Option Rat :=
  let i := s.takeWhile Char.isDigit
  let f := (splitPoint (s.dropWhile Char.isDigit)).1
  if i.length + f.length = 0 then none
  else (parseExponent (splitPoint (s.dropWhile Char.isDigit)).2).map fun e => digitsValue (i ++ f) * (10 : Rat) ^ (e - (f.length : Int))

/-- `parse_inf_nan` (called at /repo/src/data_api.rs l.179) -/
def parseInfNan (s : List Char) (neg : Bool) : Option F64 :=
  let t := s.map Char.toLower
  if t = ['i', 'n', 'f'] ∨ t = ['i', 'n', 'f', 'i', 'n', 'i', 't', 'y'] then some (F64.inf neg)
  else if t = ['n', 'a', 'n'] then some F64.nan
  else none

/-- `dec2flt`: the number is rounded to nearest, ties to even (called at /repo/src/data_api.rs l.179) -/
def parseChars (s : List Char) : Except ParseFloatError F64 :=
  if s = [] then .error .empty
  else
    let neg := (splitSign s).1
    let u := (splitSign s).2
    if u = [] then .error .invalid
    else match parseNumber u with
      | some q => .ok (F64.round (if neg then -q else q) neg)
      | none => match parseInfNan u neg with
        | some v => .ok v
        | none => .error .invalid

/-- `<f64 as FromStr>::from_str` (called at /repo/src/data_api.rs l.179) -/
def parse (s : String) : Except ParseFloatError F64 := parseChars s.toList

/-- `dig v = (m, e)` are the digits `flt2dec` finds for the finite number `v`: `m * 10 ^ e` is read as the absolute value of `v`, and no number with fewer digits is
(Grisu with fallback Dragon; which of several such numbers is taken does not matter here) (called at /repo/src/data_api.rs l.43-62) -/
def ShortestDigits (dig : F64 → Nat × Int) : Prop :=
  ∀ v : F64, v.isFinite = true → v.mag ≠ 0 →
    F64.round ((dig v).1 * (10 : Rat) ^ (dig v).2) false = ⟨false, v.mag, v.lt_mag⟩ ∧
    ∀ (m : Nat) (e : Int), F64.round (m * (10 : Rat) ^ e) false = ⟨false, v.mag, v.lt_mag⟩ → (Nat.digits 10 (dig v).1).length ≤ (Nat.digits 10 m).length

/-- the decimal digits of a number (called at /repo/src/data_api.rs l.43-62) -/
def decimal (m : Nat) : List Char := (Nat.digits 10 m).reverse.map Nat.digitChar

/-- `digits_to_dec_str` without minimal number of decimals: `0.` followed by `buf`, times `10 ^ exp` (called at /repo/src/data_api.rs l.43-62) -/
def toDecStr (buf : List Char) (exp : Int) : List Char :=
  if exp ≤ 0 then '0' :: '.' :: (List.replicate (-exp).toNat '0' ++ buf)
  else if exp < buf.length then buf.take exp.toNat ++ '.' :: buf.drop exp.toNat
  else buf ++ List.replicate (exp - buf.length).toNat '0'

/-- an integer in decimal (called at /repo/src/data_api.rs l.43-62) -/
def intText (k : Int) : List Char :=
  if k < 0 then '-' :: natText k.natAbs else natText k.natAbs
where
  /-- a natural number in decimal, `0` for zero -/
  natText (n : Nat) : List Char := if n = 0 then ['0'] else decimal n

/-- `digits_to_exp_str`: one digit before the point (called at /repo/src/data_api.rs l.43-62) -/
def toExpStr (buf : List Char) (exp : Int) (upper : Bool) : List Char :=
  let e := if upper then 'E' else 'e'
  match buf with
  | [] => []
  | [d] => d :: e :: intText (exp - 1)
  | d :: t => d :: '.' :: (t ++ e :: intText (exp - 1))

/-- sign, special values and zero are the same for all three; `fin` prints the digits, `zero` is the text of zero
(called at /repo/src/data_api.rs l.43-62) -/
def format (dig : F64 → Nat × Int) (zero : List Char) (fin : List Char → Int → List Char) (v : F64) : String :=
  String.ofList (if v.isNaN then ['N', 'a', 'N']
    else (if v.sign then ['-'] else []) ++
      if v.isInf then ['i', 'n', 'f']
      else if v.isZero then zero
      else let buf := decimal (dig v).1
        fin buf (buf.length + (dig v).2))

/-- `{}` of an `f64` (/repo/src/data_api.rs l.46) -/
def display (dig : F64 → Nat × Int) : F64 → String := format dig ['0'] toDecStr

/-- `{:e}` of an `f64` (/repo/src/data_api.rs l.53) -/
def lowerExp (dig : F64 → Nat × Int) : F64 → String := format dig ['0', 'e', '0'] (toExpStr · · false)

/-- `{:E}` of an `f64` (/repo/src/data_api.rs l.60) -/
def upperExp (dig : F64 → Nat × Int) : F64 → String := format dig ['0', 'E', '0'] (toExpStr · · true)

end FloatText
end GaussQuad
