import Verif.Model.Ext
import Verif.Model.DataApi

/-! Model of `/repo/src/chebyshev/mod.rs`. -/

namespace GaussQuad
open FloatOps
variable {F : Type} [FloatOps F] {m : Type → Type} [Monad m]

namespace GaussChebyshevFirstKind

/-- the closure mapped over `(1..degree + 1).rev()`, /repo/src/chebyshev/mod.rs l.56, l.78 -/
def pair (degree i : Nat) : F × F :=
  let n : F := ofNat degree
  (cos (pi *ᶠ (lit 2.0 *ᶠ ofNat i -ᶠ lit 1.0) /ᶠ (lit 2.0 *ᶠ n)), pi /ᶠ n)

/-- `GaussChebyshevFirstKind::new`, /repo/src/chebyshev/mod.rs l.50-59; `none` is the overflow panic. -/
def new (mode : Overflow) (degree : Nat) : Option (Rule F) := do
  let hi ← usizeAddOne mode degree
  pure ⟨(rangeRev hi).map (pair degree)⟩

/-- `GaussChebyshevFirstKind::par_new`, /repo/src/chebyshev/mod.rs l.71-81 -/
def parNew (mode : Overflow) (s : Schedule) (degree : Nat) : Option (Rule F) := do
  let hi ← usizeAddOne mode degree
  let pairs ← parCollect s (rangeRev hi) (fun i => some (pair degree i))
  pure ⟨pairs⟩

/-- `argument_transformation`, /repo/src/chebyshev/mod.rs l.61-63 -/
def argumentTransformation (x a b : F) : F := lit 0.5 *ᶠ ((b -ᶠ a) *ᶠ x +ᶠ (b +ᶠ a))

/-- `scale_factor`, /repo/src/chebyshev/mod.rs l.65-67 -/
def scaleFactor (a b : F) : F := lit 0.5 *ᶠ (b -ᶠ a)

/-- `GaussChebyshevFirstKind::integrate`, /repo/src/chebyshev/mod.rs l.95-105 -/
def integrate (r : Rule F) (a b : F) (integrand : F → m F) : m F := do
  let result ← sumMapM r.nodeWeightPairs (fun p => do
    let y ← integrand (argumentTransformation p.1 a b)
    pure (y *ᶠ p.2))
  pure (result *ᶠ scaleFactor a b)

/-- `GaussChebyshevFirstKind::par_integrate`, /repo/src/chebyshev/mod.rs l.109-119 -/
def parIntegrate (s : Schedule) (r : Rule F) (a b : F) (integrand : F → F) : F :=
  let result := parSumMap s r.nodeWeightPairs
    (fun p => integrand (argumentTransformation p.1 a b) *ᶠ p.2)
  result *ᶠ scaleFactor a b

end GaussChebyshevFirstKind

namespace GaussChebyshevSecondKind

/-- the closure mapped over `(1..degree + 1).rev()`, /repo/src/chebyshev/mod.rs l.154-161, l.175-182 -/
def pair (degree i : Nat) : F × F :=
  let n : F := ofNat degree
  let overNPlus1 := lit 1.0 /ᶠ (n +ᶠ lit 1.0)
  let sinVal := sin (pi *ᶠ ofNat i *ᶠ overNPlus1)
  (cos (pi *ᶠ ofNat i *ᶠ overNPlus1), pi *ᶠ overNPlus1 *ᶠ sinVal *ᶠ sinVal)

/-- `GaussChebyshevSecondKind::new`, /repo/src/chebyshev/mod.rs l.148-164 -/
def new (mode : Overflow) (degree : Nat) : Option (Rule F) := do
  let hi ← usizeAddOne mode degree
  pure ⟨(rangeRev hi).map (pair degree)⟩

/-- `GaussChebyshevSecondKind::par_new`, /repo/src/chebyshev/mod.rs l.168-185 -/
def parNew (mode : Overflow) (s : Schedule) (degree : Nat) : Option (Rule F) := do
  let hi ← usizeAddOne mode degree
  let pairs ← parCollect s (rangeRev hi) (fun i => some (pair degree i))
  pure ⟨pairs⟩

/-- `argument_transformation`, /repo/src/chebyshev/mod.rs l.187-189 -/
def argumentTransformation (x a b : F) : F := lit 0.5 *ᶠ ((b -ᶠ a) *ᶠ x +ᶠ (b +ᶠ a))

/-- `scale_factor`, /repo/src/chebyshev/mod.rs l.191-193 -/
def scaleFactor (a b : F) : F := lit 0.5 *ᶠ (b -ᶠ a)

/-- `GaussChebyshevSecondKind::integrate`, /repo/src/chebyshev/mod.rs l.207-217 -/
def integrate (r : Rule F) (a b : F) (integrand : F → m F) : m F := do
  let result ← sumMapM r.nodeWeightPairs (fun p => do
    let y ← integrand (argumentTransformation p.1 a b)
    pure (y *ᶠ p.2))
  pure (result *ᶠ scaleFactor a b)

/-- `GaussChebyshevSecondKind::par_integrate`, /repo/src/chebyshev/mod.rs l.221-231 -/
def parIntegrate (s : Schedule) (r : Rule F) (a b : F) (integrand : F → F) : F :=
  let result := parSumMap s r.nodeWeightPairs
    (fun p => integrand (argumentTransformation p.1 a b) *ᶠ p.2)
  result *ᶠ scaleFactor a b

end GaussChebyshevSecondKind

end GaussQuad
