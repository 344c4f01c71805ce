import Verif.Model.Ext
import Verif.Model.DataApi

/-! Models of `/repo/src/midpoint/mod.rs`, `/repo/src/trapezoid/mod.rs` and `/repo/src/simpson/mod.rs`.
The degree is a `NonZeroU32` (`NodeRule`); integrands are effectful (`FnMut`). -/

namespace GaussQuad
open FloatOps
variable {F : Type} [FloatOps F] {m : Type → Type} [Monad m]

namespace Midpoint

/-- `Midpoint::integrate`, /repo/src/midpoint/mod.rs l.76-88 -/
def integrate (r : NodeRule) (a b : F) (integrand : F → m F) : m F := do
  let rectWidth := (b -ᶠ a) /ᶠ ofNat r.degree
  let sum ← sumMapM (r.nodes : List F) (fun node => integrand (a +ᶠ rectWidth *ᶠ (lit 0.5 +ᶠ node)))
  pure (sum *ᶠ rectWidth)

/-- `Midpoint::par_integrate`, /repo/src/midpoint/mod.rs l.92-104 -/
def parIntegrate (s : Schedule) (r : NodeRule) (a b : F) (integrand : F → F) : F :=
  let rectWidth := (b -ᶠ a) /ᶠ ofNat r.degree
  let sum := parSumMap s (List.range r.degree)
    (fun node => integrand (a +ᶠ rectWidth *ᶠ (lit 0.5 +ᶠ ofNat node)))
  sum *ᶠ rectWidth

end Midpoint

namespace Trapezoid

/-- `Trapezoid::integrate`, /repo/src/trapezoid/mod.rs l.74-85.  The two end points are evaluated first. -/
def integrate (r : NodeRule) (a b : F) (integrand : F → m F) : m F := do
  let deltaX := (b -ᶠ a) /ᶠ ofNat r.degree
  let fa ← integrand a
  let fb ← integrand b
  let edgePoints := (fa +ᶠ fb) /ᶠ lit 2.0
  let sum ← sumMapM (List.range' 1 (r.degree - 1)) (fun x => integrand (a +ᶠ ofNat x *ᶠ deltaX))
  pure ((edgePoints +ᶠ sum) *ᶠ deltaX)

/-- `Trapezoid::par_integrate`, /repo/src/trapezoid/mod.rs l.89-101 -/
def parIntegrate (s : Schedule) (r : NodeRule) (a b : F) (integrand : F → F) : F :=
  let deltaX := (b -ᶠ a) /ᶠ ofNat r.degree
  let edgePoints := (integrand a +ᶠ integrand b) /ᶠ lit 2.0
  let sum := parSumMap s (List.range' 1 (r.degree - 1)) (fun x => integrand (a +ᶠ ofNat x *ᶠ deltaX))
  (edgePoints +ᶠ sum) *ᶠ deltaX

end Trapezoid

namespace Simpson

/-- `Simpson::integrate`, /repo/src/simpson/mod.rs l.68-97.  The last three calls are in the order of the
final expression: last midpoint, `a`, `b`. -/
def integrate (r : NodeRule) (a b : F) (integrand : F → m F) : m F := do
  let n : F := ofNat (r.range.len)
  let h := (b -ᶠ a) /ᶠ n
  let sumOverIntervalEdges ← sumMapM ((r.nodes : List F).drop 1) (fun node => integrand (a +ᶠ node *ᶠ h))
  let sumOverMidpoints ← sumMapM ((r.nodes : List F).drop 1)
    (fun node => integrand (a +ᶠ (lit 2.0 *ᶠ node -ᶠ lit 1.0) *ᶠ h /ᶠ lit 2.0))
  let fLast ← integrand (a +ᶠ (lit 2.0 *ᶠ n -ᶠ lit 1.0) *ᶠ h /ᶠ lit 2.0)
  let fa ← integrand a
  let fb ← integrand b
  pure (h /ᶠ lit 6.0 *ᶠ
    (lit 2.0 *ᶠ sumOverIntervalEdges +ᶠ lit 4.0 *ᶠ sumOverMidpoints +ᶠ lit 4.0 *ᶠ fLast +ᶠ fa +ᶠ fb))

/-- `Simpson::par_integrate`, /repo/src/simpson/mod.rs l.101-130.  `rayon::join` runs the two sums in either
order; both closures are pure (`Fn`), so the pair of results is all that matters. -/
def parIntegrate (s₁ s₂ : Schedule) (r : NodeRule) (a b : F) (integrand : F → F) : F :=
  let n : F := ofNat r.degree
  let h := (b -ᶠ a) /ᶠ n
  let sumOverIntervalEdges :=
    parSumMap s₁ (List.range' 1 (r.degree - 1)) (fun node => integrand (a +ᶠ ofNat node *ᶠ h))
  let sumOverMidpoints :=
    parSumMap s₂ (List.range' 1 (r.degree - 1))
      (fun node => integrand (a +ᶠ (lit 2.0 *ᶠ ofNat node -ᶠ lit 1.0) *ᶠ h /ᶠ lit 2.0))
  h /ᶠ lit 6.0 *ᶠ
    (lit 2.0 *ᶠ sumOverIntervalEdges +ᶠ lit 4.0 *ᶠ sumOverMidpoints
      +ᶠ lit 4.0 *ᶠ integrand (a +ᶠ (lit 2.0 *ᶠ n -ᶠ lit 1.0) *ᶠ h /ᶠ lit 2.0)
      +ᶠ integrand a +ᶠ integrand b)

end Simpson

end GaussQuad
