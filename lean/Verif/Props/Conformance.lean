import Verif.Model.AnyRule
import Verif.Model.F64

/-!
# The crate's own assertions, executed in the binary64 model

These are tests of the model, not theorems about the code: each `example` is an assertion of a unit test or a documentation example of /repo that needs no function of the math backend,
evaluated by the kernel in the binary64 instance.  A mismatch between the model and the code in these paths would show up here as a failing build.
`absDiffEq` is `approx::abs_diff_eq!` for `f64`: `x == y || |x - y| <= epsilon`.
-/

namespace GaussQuad.Props.Conformance
open FloatOps

/-- a math backend that is never called here (every function returns NaN) -/
def noLibm : Libm := ⟨fun _ => .nan, fun _ => .nan, fun _ _ => .nan, fun _ => .nan⟩

attribute [local instance] noLibm

/-- a decimal literal -/
def d (q : Rat) : F64 := lit q

/-- `abs_diff_eq!(x, y, epsilon = e)` -/
def absDiffEq (x y e : F64) : Bool :=
  F64.eqb x y || (let z := F64.sub x y; let a : F64 := ⟨false, z.mag, z.lt_mag⟩; F64.ltb a e || F64.eqb a e)

def val (R : AnyRule F64) (a b : F64) (f : F64 → F64) : F64 := R.value a b f

-- /repo/src/midpoint/mod.rs l.24-26
example : absDiffEq (val (.midpoint ⟨30, by decide, by decide⟩) (d (-1)) (d 1) fun x => F64.mul x x) (d 0.66666) (d 0.001) = true := by decide +kernel
-- /repo/src/midpoint/mod.rs l.127-132
example : absDiffEq (val (.midpoint ⟨100, by decide, by decide⟩) (d 0) (d 1) fun x => F64.mul x x) (F64.div (d 1) (d 3)) (d 0.0001) = true := by decide +kernel
-- /repo/src/simpson/mod.rs l.151-156
example : absDiffEq (val (.simpson ⟨2, by decide, by decide⟩) (d 0) (d 1) fun x => F64.mul x x) (F64.div (d 1) (d 3)) (d 0.0001) = true := by decide +kernel

-- the trapezoidal rule of the documentation (/repo/src/trapezoid/mod.rs l.17-22), with 40 instead of 1000 points and epsilon 1e-2 instead of 1e-5
-- (the kernel's stack does not take 1000)
example : absDiffEq (val (.trapezoid ⟨40, by decide, by decide⟩) (d (-1)) (d 1) fun x => F64.sub (F64.mul x x) (d 1)) (F64.div (d (-4)) (d 3)) (d 1e-2) = true := by
  decide +kernel

/-- the parameter type in binary64 -/
abbrev Param := FiniteAboveNegOne F64

def new (x : F64) : Option Param := FiniteAboveNegOne.new x
def get (x : Option Param) : Option F64 := x.map FiniteAboveNegOne.get
def infinity : F64 := F64.inf false

-- /repo/src/data_api.rs l.655-662 and l.665-672
example : (new (d 0)).isSome = true ∧ (new (d (-0.5))).isSome = true ∧ (new (d (-1))).isNone = true ∧ (new .nan).isNone = true ∧ (new infinity).isNone = true ∧
    (new (F64.inf true)).isNone = true := by decide +kernel
-- /repo/src/data_api.rs l.705-722 (`checked_pow` calls the backend and is left out)
example : get ((new (d 0.5)).bind fun v => v.checkedAdd (d 0.5)) = some (d 1) := by decide +kernel
example : ((new (d 0.5)).bind fun v => v.checkedAdd infinity).isNone = true := by decide +kernel
example : ((new (d 0.5)).bind fun v => v.checkedSub (d 2)).isNone = true := by decide +kernel
example : ((new (d 0.5)).bind fun v => v.checkedAdd .nan).isNone = true := by decide +kernel
example : get ((new (d 0.5)).bind fun v => v.checkedMul (d 2)) = some (d 1) := by decide +kernel
example : ((new (d 0.5)).bind fun v => v.checkedDiv (d 0)).isNone = true := by decide +kernel
example : ((new (d 0.5)).bind fun v => v.checkedDiv .nan).isNone = true := by decide +kernel
-- /repo/src/data_api.rs l.738-741
example : (FiniteAboveNegOne.default : Param).get = d 0 := by decide +kernel

/-- `MockQuadrature::new(5)`, /repo/src/data_api.rs l.572-576 -/
def mock : Rule F64 := ⟨(List.range 5).map fun i : Nat => (d (i : Rat), d 1)⟩

-- /repo/src/data_api.rs l.596-649
example : mock.nodes.count = 5 ∧ mock.weights.count = 5 ∧ mock.iter.count = 5 ∧ mock.asNodeWeightPairs.length = 5 ∧ mock.intoNodeWeightPairs.length = 5 ∧ mock.degree = 5 := by
  decide +kernel
example : mock.refIntoIter.next.1.map (·.1) = some (d 0) ∧ mock.refIntoIter.next.2.next.1.map (·.1) = some (d 1) := by decide +kernel
example : mock.refIntoIter.sizeHint = (5, some 5) ∧ mock.refIntoIter.count = 5 ∧ mock.refIntoIter.len = 5 ∧ mock.refIntoIter.asSlice.length = 5 := by decide +kernel
example : (mock.refIntoIter.nth 2).1.map (·.1) = some (d 2) ∧ mock.refIntoIter.last.map (·.1) = some (d 4) ∧ mock.refIntoIter.nextBack.1.map (·.1) = some (d 4) ∧
    (mock.refIntoIter.nthBack 1).1.map (·.1) = some (d 3) ∧ mock.refIntoIter.asSlice[2]?.map (·.1) = some (d 2) := by decide +kernel

end GaussQuad.Props.Conformance
