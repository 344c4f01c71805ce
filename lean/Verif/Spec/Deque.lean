/-!
# Specification of a double-ended exact-size iterator

Independent of the model: the remaining items are a list; every operation acts on that list.
-/

namespace GaussQuad.Spec

/-- The operations a caller can interleave on an iterator. -/
inductive IterOp where
  | next | nextBack | nth (n : Nat) | nthBack (n : Nat) | len | sizeHint

/-- What an operation returns. -/
inductive IterOut (α : Type) where
  | item (x : Option α)
  | count (n : Nat)
  | hint (lo : Nat) (hi : Option Nat)

/-- One operation on the remaining items: what is returned and what remains. -/
def dequeStep {α : Type} (l : List α) : IterOp → IterOut α × List α
  | .next => (.item l.head?, l.tail)
  | .nextBack => (.item l.getLast?, l.dropLast)
  | .nth n => (.item l[n]?, l.drop (n + 1))
  | .nthBack n => (.item l.reverse[n]?, l.take (l.length - (n + 1)))
  | .len => (.count l.length, l)
  | .sizeHint => (.hint l.length (some l.length), l)

/-- A whole history of operations: all outputs and the remaining items. -/
def dequeRun {α : Type} (l : List α) : List IterOp → List (IterOut α) × List α
  | [] => ([], l)
  | op :: ops =>
    let (o, l') := dequeStep l op
    let (os, l'') := dequeRun l' ops
    (o :: os, l'')

end GaussQuad.Spec
