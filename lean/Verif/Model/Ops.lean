/-!
# Floating point interface

The crate computes in `f64`.  Every function of the model is written over an arbitrary
implementation `F` of the `f64` interface it uses, so that

* structural theorems hold for every arithmetic,
* exactness theorems can be stated for the instance `F = ℝ` (`Verif.Model.RealOps`),
* floating point theorems can be stated for the instance `F = F64` (`Verif.Model.F64`).
-/

namespace GaussQuad

/-- The part of the `f64` interface used by the crate
(`/repo/src/math.rs` l.17-91 for `sin cos pow sqrt`, operators everywhere). -/
class FloatOps (F : Type) where
  /-- `x + y` -/
  add : F → F → F
  /-- `x - y` -/
  sub : F → F → F
  /-- `x * y` -/
  mul : F → F → F
  /-- `x / y` -/
  div : F → F → F
  /-- `math::sin`, /repo/src/math.rs l.19-34 -/
  sin : F → F
  /-- `math::cos`, /repo/src/math.rs l.37-53 -/
  cos : F → F
  /-- `math::pow`, /repo/src/math.rs l.56-72 -/
  pow : F → F → F
  /-- `math::sqrt`, /repo/src/math.rs l.75-91 -/
  sqrt : F → F
  /-- a decimal literal of the source text (correctly rounded in IEEE arithmetic) -/
  lit : Rat → F
  /-- `n as f64`, `f64::from(n)` for unsigned integers -/
  ofNat : Nat → F
  /-- `core::f64::consts::PI` -/
  pi : F
  /-- `core::f64::consts::E` -/
  e : F
  /-- IEEE `x < y` (used for `>` with swapped arguments as well) -/
  lt : F → F → Bool
  /-- IEEE `x == y`, also the semantics of float literal patterns -/
  feq : F → F → Bool
  /-- `f64::is_finite` -/
  isFinite : F → Bool
  /-- `x.total_cmp(y) != Greater` -/
  totalLe : F → F → Bool
  /-- the value `<f64 as core::iter::Sum>::sum` starts from (`-0.0`) -/
  sumInit : F

@[inherit_doc] infixl:65 " +ᶠ " => FloatOps.add
@[inherit_doc] infixl:65 " -ᶠ " => FloatOps.sub
@[inherit_doc] infixl:70 " *ᶠ " => FloatOps.mul
@[inherit_doc] infixl:70 " /ᶠ " => FloatOps.div

section Sums
variable {F : Type} [FloatOps F]

/-- `<f64 as Sum>::sum` of an already evaluated sequence: a left fold with `+` from the identity. (/repo/src/legendre/mod.rs l.142 and the like) -/
def sumList (xs : List F) : F := xs.foldl FloatOps.add FloatOps.sumInit

/-- `iter.map(g).sum::<f64>()` where `g` may have effects (an `FnMut` closure).  The closure is called
on each item in order and the value is added to the accumulator before the next call. (/repo/src/legendre/mod.rs l.138-142 and the like) -/
def sumMapM {α : Type} {m : Type → Type} [Monad m] (xs : List α) (g : α → m F) : m F :=
  xs.foldlM (fun acc x => do let y ← g x; pure (acc +ᶠ y)) FloatOps.sumInit

end Sums

end GaussQuad
