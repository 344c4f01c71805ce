import Verif.Model.NewtonCotes
import Verif.Model.GolubRules

/-!
The nine rule structs as one sum type, so that a claim about "every rule" is one statement.  The crate has no such
type; the functions below only dispatch to the methods of the individual structs.
-/

namespace GaussQuad
variable {F : Type} [FloatOps F] {m : Type → Type} [Monad m]

/-- A quadrature rule struct of the crate (re-exports of /repo/src/lib.rs l.228-247). -/
inductive AnyRule (F : Type) where
  | midpoint (r : NodeRule)
  | trapezoid (r : NodeRule)
  | simpson (r : NodeRule)
  | legendre (r : Rule F)
  | chebyshevFirst (r : Rule F)
  | chebyshevSecond (r : Rule F)
  | jacobi (r : JacobiRule F)
  | hermite (r : Rule F)
  | laguerre (r : LaguerreRule F)

namespace AnyRule

/-- the `integrate` method of the struct; the last two take no bounds
(/repo/src/legendre/mod.rs l.134-144, midpoint/mod.rs l.76-88, simpson/mod.rs l.68-97, trapezoid/mod.rs l.74-85, chebyshev/mod.rs l.95-105 and 207-217, jacobi/mod.rs l.157-167, hermite/mod.rs l.79-89, laguerre/mod.rs l.95-105) -/
def integrate (R : AnyRule F) (a b : F) (f : F → m F) : m F :=
  match R with
  | .midpoint r => Midpoint.integrate r a b f
  | .trapezoid r => Trapezoid.integrate r a b f
  | .simpson r => Simpson.integrate r a b f
  | .legendre r => GaussLegendre.integrate r a b f
  | .chebyshevFirst r => GaussChebyshevFirstKind.integrate r a b f
  | .chebyshevSecond r => GaussChebyshevSecondKind.integrate r a b f
  | .jacobi r => GaussJacobi.integrate r a b f
  | .hermite r => GaussHermite.integrate r f
  | .laguerre r => GaussLaguerre.integrate r f

/-- the `par_integrate` method of the struct (feature `rayon`); the second schedule is used by Simpson only
(/repo/src/legendre/mod.rs l.158-168, midpoint/mod.rs l.92-104, simpson/mod.rs l.101-130, trapezoid/mod.rs l.89-101, chebyshev/mod.rs l.109-119 and 221-231, jacobi/mod.rs l.171-181, hermite/mod.rs l.93-103, laguerre/mod.rs l.109-119) -/
def parIntegrate (s s' : Schedule) (R : AnyRule F) (a b : F) (f : F → F) : F :=
  match R with
  | .midpoint r => Midpoint.parIntegrate s r a b f
  | .trapezoid r => Trapezoid.parIntegrate s r a b f
  | .simpson r => Simpson.parIntegrate s s' r a b f
  | .legendre r => GaussLegendre.parIntegrate s r a b f
  | .chebyshevFirst r => GaussChebyshevFirstKind.parIntegrate s r a b f
  | .chebyshevSecond r => GaussChebyshevSecondKind.parIntegrate s r a b f
  | .jacobi r => GaussJacobi.parIntegrate s r a b f
  | .hermite r => GaussHermite.parIntegrate s r f
  | .laguerre r => GaussLaguerre.parIntegrate s r f

/-- `integrate` with a pure integrand (the methods cited at `integrate`) -/
def value (R : AnyRule F) (a b : F) (f : F → F) : F := Id.run (R.integrate a b fun x => pure (f x))

end AnyRule

end GaussQuad
