import Mathlib.Data.Rat.Defs
import Mathlib.Algebra.Order.Ring.Rat
import Mathlib.Data.List.Basic

/-!
# Decimal texts of numbers, as a grammar

The grammar printed in the documentation of `f64::from_str` of Rust's standard library, together with the number a text stands for:

    Float  ::= Sign? ( 'inf' | 'infinity' | 'nan' | Number )        (letters in either case)
    Number ::= ( Digit+ | Digit+ '.' Digit* | Digit* '.' Digit+ ) Exp?
    Exp    ::= 'e' Sign? Digit+
    Sign   ::= [+-]
    Digit  ::= [0-9]

No algorithm is used: a text stands for a number if it can be split in the way of the grammar.
-/

namespace GaussQuad.Spec

/-- the number a digit stands for -/
inductive Digit : Char → ℕ → Prop
  | d0 : Digit '0' 0
  | d1 : Digit '1' 1
  | d2 : Digit '2' 2
  | d3 : Digit '3' 3
  | d4 : Digit '4' 4
  | d5 : Digit '5' 5
  | d6 : Digit '6' 6
  | d7 : Digit '7' 7
  | d8 : Digit '8' 8
  | d9 : Digit '9' 9

/-- a possibly empty string of digits and its number: the first digit counts as many tens as there are digits after it -/
inductive Digits : List Char → ℕ → Prop
  | nil : Digits [] 0
  | cons {c : Char} {d : ℕ} {t : List Char} {n : ℕ} : Digit c d → Digits t n → Digits (c :: t) (d * 10 ^ t.length + n)

/-- an optional sign; `true` for minus -/
inductive SignText : List Char → Bool → Prop
  | none : SignText [] false
  | plus : SignText ['+'] false
  | minus : SignText ['-'] true

/-- digits with at most one point, and not without digits -/
inductive Mantissa : List Char → ℚ → Prop
  | whole {i : List Char} {n : ℕ} : Digits i n → i ≠ [] → Mantissa i n
  | point {i f : List Char} {n m : ℕ} : Digits i n → Digits f m → i ≠ [] ∨ f ≠ [] → Mantissa (i ++ '.' :: f) (n + m / 10 ^ f.length)

/-- an optional power of ten -/
inductive Exponent : List Char → ℤ → Prop
  | none : Exponent [] 0
  | some {c : Char} {s d : List Char} {neg : Bool} {n : ℕ} : c = 'e' ∨ c = 'E' → SignText s neg → Digits d n → d ≠ [] →
      Exponent (c :: (s ++ d)) (if neg then -n else n)

/-- `Number`: a text without sign and the number it stands for -/
inductive Number : List Char → ℚ → Prop
  | mk {m e : List Char} {q : ℚ} {k : ℤ} : Mantissa m q → Exponent e k → Number (m ++ e) (q * 10 ^ k)

/-- a decimal text, whether it has a minus sign, and its absolute value -/
inductive Denotes : List Char → Bool → ℚ → Prop
  | mk {s t : List Char} {neg : Bool} {q : ℚ} : SignText s neg → Number t q → Denotes (s ++ t) neg q

/-- the texts of the infinities and of NaN -/
def IsSpecial (t : List Char) : Prop :=
  ∃ s u neg, SignText s neg ∧ t = s ++ u ∧ (u.map Char.toLower = ['i', 'n', 'f'] ∨ u.map Char.toLower = ['i', 'n', 'f', 'i', 'n', 'i', 't', 'y'] ∨ u.map Char.toLower = ['n', 'a', 'n'])

end GaussQuad.Spec
