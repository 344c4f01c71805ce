import Verif.Model.AnyRule

/-!
What a reader of `Debug` output sees, independently of how it is written: the words between the punctuation, and the exact texts.
-/

namespace GaussQuad.Spec

/-- punctuation and blanks -/
def isPunct (c : Char) : Bool := [',', '(', ')', '[', ']', '{', '}', ':', ' ', '\n'].contains c

/-- the words of a text: split at every punctuation character, empty pieces dropped -/
def words (t : List Char) : List (List Char) := (t.splitOnP isPunct).filter (fun w => !w.isEmpty)

/-- a text that is a single word -/
def IsWord (t : List Char) : Prop := t ≠ [] ∧ ∀ c ∈ t, isPunct c = false

/-- the texts of all nodes and weights in order -/
def pairWords {F : Type} (text : F → List Char) (l : List (F × F)) : List (List Char) := l.flatMap fun p => [text p.1, text p.2]

/-- all numbers stored in a rule -/
def numbers {F : Type} : AnyRule F → List F
  | .midpoint _ | .trapezoid _ | .simpson _ => []
  | .legendre r | .chebyshevFirst r | .chebyshevSecond r | .hermite r => r.nodeWeightPairs.flatMap fun p => [p.1, p.2]
  | .jacobi r => (r.nodeWeightPairs.flatMap fun p => [p.1, p.2]) ++ [r.alpha.val, r.beta.val]
  | .laguerre r => (r.nodeWeightPairs.flatMap fun p => [p.1, p.2]) ++ [r.alpha.val]

/-- `[(x, w), (x, w)]` -/
def pairsCompact {F : Type} (text : F → List Char) (l : List (F × F)) : List Char :=
  "[".toList ++ (List.intercalate ", ".toList (l.map fun p => "(".toList ++ text p.1 ++ ", ".toList ++ text p.2 ++ ")".toList) ++ "]".toList)

/-- the lines of the pairs as the value of a field, one number per line, or `[]` -/
def pairsPretty {F : Type} (text : F → List Char) : List (F × F) → List Char
  | [] => "[]".toList
  | l => "[\n".toList ++ ((l.flatMap fun p => "        (\n            ".toList ++ text p.1 ++ ",\n            ".toList ++ text p.2 ++ ",\n        ),\n".toList) ++ "    ]".toList)

end GaussQuad.Spec
