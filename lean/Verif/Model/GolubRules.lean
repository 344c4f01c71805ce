import Verif.Model.GolubWelsch
import Verif.Model.Math
import Verif.Model.Legendre
import Verif.Model.Chebyshev

/-! Models of `/repo/src/hermite/mod.rs`, `/repo/src/laguerre/mod.rs` and `/repo/src/jacobi/mod.rs`. -/

namespace GaussQuad
open FloatOps
variable {F : Type} [FloatOps F] {m : Type → Type} [Monad m]

namespace GaussHermite

/-- the `diag` closure, /repo/src/hermite/mod.rs l.73 -/
def diag (_idx : Nat) : F := lit 0.0

/-- the `off_diag` closure, /repo/src/hermite/mod.rs l.73 -/
def offDiag (idx : Nat) : F := sqrt ((lit 1.0 +ᶠ ofNat idx) *ᶠ lit 0.5)

/-- `GaussHermite::new`, /repo/src/hermite/mod.rs l.71-76 -/
def new (ext : Externals F) (deg : Nat) : Option (Rule F) := do
  let nodeWeightPairs ← golubWelsch ext deg diag offDiag (sqrt pi)
  pure ⟨nodeWeightPairs⟩

/-- `GaussHermite::integrate`, /repo/src/hermite/mod.rs l.79-89 -/
def integrate (r : Rule F) (integrand : F → m F) : m F :=
  sumMapM r.nodeWeightPairs (fun p => do
    let y ← integrand p.1
    pure (y *ᶠ p.2))

/-- `GaussHermite::par_integrate`, /repo/src/hermite/mod.rs l.93-103 -/
def parIntegrate (s : Schedule) (r : Rule F) (integrand : F → F) : F :=
  parSumMap s r.nodeWeightPairs (fun p => integrand p.1 *ᶠ p.2)

end GaussHermite

/-- `struct GaussLaguerre`, /repo/src/laguerre/mod.rs l.63-66 -/
structure LaguerreRule (F : Type) extends Rule F where
  alpha : FiniteAboveNegOne F

namespace GaussLaguerre

/-- the `diag` closure, /repo/src/laguerre/mod.rs l.78 -/
def diag (alpha : F) (idx : Nat) : F := alpha +ᶠ lit 1.0 +ᶠ lit 2.0 *ᶠ ofNat idx

/-- the `off_diag` closure, /repo/src/laguerre/mod.rs l.79-82 -/
def offDiag (alpha : F) (idx : Nat) : F :=
  let idxP1 := lit 1.0 +ᶠ ofNat idx
  sqrt (idxP1 *ᶠ (idxP1 +ᶠ alpha))

/-- `GaussLaguerre::new`, /repo/src/laguerre/mod.rs l.75-90 -/
def new (ext : Externals F) (degree : Nat) (alpha : FiniteAboveNegOne F) : Option (LaguerreRule F) := do
  let nodeWeightPairs ← golubWelsch ext degree (diag alpha.get) (offDiag alpha.get)
    (gamma (alpha.get +ᶠ lit 1.0))
  pure { nodeWeightPairs := nodeWeightPairs, alpha := alpha }

/-- `GaussLaguerre::integrate`, /repo/src/laguerre/mod.rs l.95-105 -/
def integrate (r : LaguerreRule F) (integrand : F → m F) : m F :=
  sumMapM r.nodeWeightPairs (fun p => do
    let y ← integrand p.1
    pure (y *ᶠ p.2))

/-- `GaussLaguerre::par_integrate`, /repo/src/laguerre/mod.rs l.109-119 -/
def parIntegrate (s : Schedule) (r : LaguerreRule F) (integrand : F → F) : F :=
  parSumMap s r.nodeWeightPairs (fun p => integrand p.1 *ᶠ p.2)

end GaussLaguerre

/-- `struct GaussJacobi`, /repo/src/jacobi/mod.rs l.63-67 -/
structure JacobiRule (F : Type) extends Rule F where
  alpha : FiniteAboveNegOne F
  beta : FiniteAboveNegOne F

namespace GaussJacobi

/-- `From<GaussLegendre>`, /repo/src/jacobi/mod.rs l.199-209.  The constant is
`FiniteAboveNegOneF64::new(0.0).unwrap()`; the unwrap is evaluated at compile time and cannot fail. -/
def ofLegendre (r : Rule F) : JacobiRule F :=
  { nodeWeightPairs := r.intoNodeWeightPairs, alpha := ⟨lit 0.0⟩, beta := ⟨lit 0.0⟩ }

/-- `From<GaussChebyshevFirstKind>`, /repo/src/jacobi/mod.rs l.212-222 -/
def ofChebyshevFirstKind (r : Rule F) : JacobiRule F :=
  { nodeWeightPairs := r.intoNodeWeightPairs, alpha := ⟨lit (-0.5)⟩, beta := ⟨lit (-0.5)⟩ }

/-- `From<GaussChebyshevSecondKind>`, /repo/src/jacobi/mod.rs l.225-235 -/
def ofChebyshevSecondKind (r : Rule F) : JacobiRule F :=
  { nodeWeightPairs := r.intoNodeWeightPairs, alpha := ⟨lit 0.5⟩, beta := ⟨lit 0.5⟩ }

/-- node of the degree-1 special case, /repo/src/jacobi/mod.rs l.89 -/
def nodeOne (alpha beta : F) : F := (beta -ᶠ alpha) /ᶠ (alpha +ᶠ beta +ᶠ lit 2.0)

/-- weight of the degree-1 special case, /repo/src/jacobi/mod.rs l.90-93 -/
def weightOne (alpha beta : F) : F :=
  pow (lit 2.0) (alpha +ᶠ beta +ᶠ lit 1.0) *ᶠ gamma (alpha +ᶠ lit 1.0) *ᶠ gamma (beta +ᶠ lit 1.0)
    /ᶠ gamma (alpha +ᶠ beta +ᶠ lit 2.0)

/-- the `diag` closure, /repo/src/jacobi/mod.rs l.103-111 -/
def diag (alpha beta : F) (idx : Nat) : F :=
  if idx = 0 then (beta -ᶠ alpha) /ᶠ (lit 2.0 +ᶠ beta +ᶠ alpha)
  else
    let denomSum := lit 2.0 *ᶠ ofNat idx +ᶠ alpha +ᶠ beta
    (beta *ᶠ beta -ᶠ alpha *ᶠ alpha) /ᶠ (denomSum *ᶠ (denomSum +ᶠ lit 2.0))

/-- the `off_diag` closure, /repo/src/jacobi/mod.rs l.112-124 -/
def offDiag (alpha beta : F) (idx : Nat) : F :=
  let idxF64 : F := ofNat idx
  let idxP1 := idxF64 +ᶠ lit 1.0
  let denomSum := lit 2.0 *ᶠ idxP1 +ᶠ alpha +ᶠ beta
  lit 2.0 /ᶠ denomSum *ᶠ
    sqrt (idxP1 *ᶠ (idxP1 +ᶠ alpha) *ᶠ (idxP1 +ᶠ beta) *ᶠ (idxP1 +ᶠ alpha +ᶠ beta)
      /ᶠ ((denomSum +ᶠ lit 1.0) *ᶠ (denomSum -ᶠ lit 1.0)))

/-- the scale factor argument, /repo/src/jacobi/mod.rs l.125-129 -/
def weightScale (alpha beta : F) : F :=
  pow (lit 2.0) (alpha +ᶠ beta +ᶠ lit 1.0) *ᶠ gamma (alpha +ᶠ lit 1.0) *ᶠ gamma (beta +ᶠ lit 1.0)
    /ᶠ gamma (alpha +ᶠ beta +ᶠ lit 1.0) /ᶠ (alpha +ᶠ beta +ᶠ lit 1.0)

/-- the odd-degree "manual correction" `node_weight_pairs[deg / 2].0 = 0.0`, /repo/src/jacobi/mod.rs l.132-137;
`none` is the out-of-bounds panic. -/
def fixMiddle (deg : Nat) (pairs : List (F × F)) : Option (List (F × F)) :=
  if deg % 2 == 1 then
    match pairs[deg / 2]? with
    | some p => some (pairs.set (deg / 2) (lit 0.0, p.2))
    | none => none
  else some pairs

/-- the general branch of `GaussJacobi::new` (no delegation, degree at least 2), /repo/src/jacobi/mod.rs l.101-143 -/
def newGeneral (ext : Externals F) (deg : Nat) (alpha beta : FiniteAboveNegOne F) :
    Option (JacobiRule F) := do
  let pairs ← golubWelsch ext deg (diag alpha.get beta.get) (offDiag alpha.get beta.get)
    (weightScale alpha.get beta.get)
  let pairs ← fixMiddle deg pairs
  pure { nodeWeightPairs := pairs, alpha := alpha, beta := beta }

/-- `GaussJacobi::new`, /repo/src/jacobi/mod.rs l.77-144.  Float literal patterns compare with IEEE `==`. -/
def new (mode : Overflow) (ext : Externals F) (deg : Nat) (alpha beta : FiniteAboveNegOne F) :
    Option (JacobiRule F) :=
  if feq alpha.get (lit 0.0) && feq beta.get (lit 0.0) then
    (GaussLegendre.new mode deg).map ofLegendre
  else if feq alpha.get (lit (-0.5)) && feq beta.get (lit (-0.5)) then
    (GaussChebyshevFirstKind.new mode deg).map ofChebyshevFirstKind
  else if feq alpha.get (lit 0.5) && feq beta.get (lit 0.5) then
    (GaussChebyshevSecondKind.new mode deg).map ofChebyshevSecondKind
  else if deg = 1 then
    some { nodeWeightPairs := [(nodeOne alpha.get beta.get, weightOne alpha.get beta.get)],
           alpha := alpha, beta := beta }
  else newGeneral ext deg alpha beta

/-- `argument_transformation`, /repo/src/jacobi/mod.rs l.146-148 -/
def argumentTransformation (x a b : F) : F := lit 0.5 *ᶠ ((b -ᶠ a) *ᶠ x +ᶠ (b +ᶠ a))

/-- `scale_factor`, /repo/src/jacobi/mod.rs l.150-152 -/
def scaleFactor (a b : F) : F := lit 0.5 *ᶠ (b -ᶠ a)

/-- `GaussJacobi::integrate`, /repo/src/jacobi/mod.rs l.157-167 -/
def integrate (r : JacobiRule F) (a b : F) (integrand : F → m F) : m F := do
  let result ← sumMapM r.nodeWeightPairs (fun p => do
    let y ← integrand (argumentTransformation p.1 a b)
    pure (y *ᶠ p.2))
  pure (scaleFactor a b *ᶠ result)

/-- `GaussJacobi::par_integrate`, /repo/src/jacobi/mod.rs l.171-181 -/
def parIntegrate (s : Schedule) (r : JacobiRule F) (a b : F) (integrand : F → F) : F :=
  let result := parSumMap s r.nodeWeightPairs
    (fun p => integrand (argumentTransformation p.1 a b) *ᶠ p.2)
  scaleFactor a b *ᶠ result

end GaussJacobi

end GaussQuad
