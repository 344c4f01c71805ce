import Verif.Model.AnyRule

/-!
Model of the equality `derive(PartialEq)` generates for the rule structs, and of `Clone`.

A derived `==` compares the fields in declaration order and stops at the first difference; `Box<[T]>` compares like a slice
(different lengths are different, then element by element); a tuple compares its components; `f64` uses IEEE `==`.
`Clone` copies every field, so a clone is the same value.
-/

namespace GaussQuad
open FloatOps
variable {F : Type} [FloatOps F]

/-- `==` of the field `node_weight_pairs: Box<[(Node, Weight)]>` (/repo/src/legendre/mod.rs l.74-83 and the like) -/
def pairsEq : List (F × F) → List (F × F) → Bool
  | [], [] => true
  | p :: ps, q :: qs => (feq p.1 q.1 && feq p.2 q.2) && pairsEq ps qs
  | _, _ => false

/-- `#[derive(PartialEq)]` on the structs with the single field `node_weight_pairs`: `GaussLegendre` (/repo/src/legendre/mod.rs
l.74-83), `GaussChebyshevFirstKind`, `GaussChebyshevSecondKind` (/repo/src/chebyshev/mod.rs l.37-46, l.139-144) and
`GaussHermite` (/repo/src/hermite/mod.rs l.54-63) -/
def Rule.eq (r r' : Rule F) : Bool := pairsEq r.nodeWeightPairs r'.nodeWeightPairs

/-- `#[derive(PartialEq)]` on `GaussLaguerre`, /repo/src/laguerre/mod.rs l.56-66 -/
def LaguerreRule.eq (r r' : LaguerreRule F) : Bool := pairsEq r.nodeWeightPairs r'.nodeWeightPairs && r.alpha.eq r'.alpha

/-- `#[derive(PartialEq)]` on `GaussJacobi`, /repo/src/jacobi/mod.rs l.56-67 -/
def JacobiRule.eq (r r' : JacobiRule F) : Bool :=
  pairsEq r.nodeWeightPairs r'.nodeWeightPairs && (r.alpha.eq r'.alpha && r.beta.eq r'.beta)

/-- `#[derive(PartialEq)]` on `Midpoint`, `Trapezoid` and `Simpson`: /repo/src/midpoint/mod.rs l.61-65,
/repo/src/trapezoid/mod.rs l.50-54, /repo/src/simpson/mod.rs l.55-59 -/
def NodeRule.eq (r r' : NodeRule) : Bool := r.degree == r'.degree

/-- `==` between two values of the same struct; values of different structs cannot be compared in Rust, here they are different
(`derive(PartialEq)`, /repo/src/legendre/mod.rs l.74 and the like) -/
def AnyRule.eq : AnyRule F → AnyRule F → Bool
  | .midpoint r, .midpoint r' => r.eq r'
  | .trapezoid r, .trapezoid r' => r.eq r'
  | .simpson r, .simpson r' => r.eq r'
  | .legendre r, .legendre r' => r.eq r'
  | .chebyshevFirst r, .chebyshevFirst r' => r.eq r'
  | .chebyshevSecond r, .chebyshevSecond r' => r.eq r'
  | .jacobi r, .jacobi r' => r.eq r'
  | .hermite r, .hermite r' => r.eq r'
  | .laguerre r, .laguerre r' => r.eq r'
  | _, _ => false

/-- derived `clone()`: every field is copied (lines as above) (`derive(Clone)`, /repo/src/legendre/mod.rs l.74 and the like) -/
def AnyRule.clone (R : AnyRule F) : AnyRule F := R

end GaussQuad
