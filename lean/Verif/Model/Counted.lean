import Verif.Model.Ops

/-!
An arithmetic that counts its operations.  A `Counted F` is a value of `F` together with the number of arithmetic operations,
calls of `sin`, `cos`, `pow`, `sqrt` and integer conversions needed to compute it, where the cost of an intermediate result is
counted again at every use.  The count is an upper bound for the operations executed by the Rust code, which keeps intermediate
results in variables.  Literals, constants and comparisons are free.

Every function of the model is written over an arbitrary arithmetic, so the functions of `/repo/src` can be run on this one.
-/

namespace GaussQuad

/-- a value and the number of operations it took (not in /repo; runs the functions of /repo/src/*.rs) -/
structure Counted (F : Type) where
  val : F
  cost : Nat

/-- not in /repo; the operations of `FloatOps`, /repo/src/math.rs l.17-91, each adding one to the count -/
instance countedOps {F : Type} [FloatOps F] : FloatOps (Counted F) where
  add x y := ⟨FloatOps.add x.val y.val, x.cost + y.cost + 1⟩
  sub x y := ⟨FloatOps.sub x.val y.val, x.cost + y.cost + 1⟩
  mul x y := ⟨FloatOps.mul x.val y.val, x.cost + y.cost + 1⟩
  div x y := ⟨FloatOps.div x.val y.val, x.cost + y.cost + 1⟩
  sin x := ⟨FloatOps.sin x.val, x.cost + 1⟩
  cos x := ⟨FloatOps.cos x.val, x.cost + 1⟩
  pow x y := ⟨FloatOps.pow x.val y.val, x.cost + y.cost + 1⟩
  sqrt x := ⟨FloatOps.sqrt x.val, x.cost + 1⟩
  lit q := ⟨FloatOps.lit q, 0⟩
  ofNat n := ⟨FloatOps.ofNat n, 1⟩
  pi := ⟨FloatOps.pi, 0⟩
  e := ⟨FloatOps.e, 0⟩
  lt x y := FloatOps.lt x.val y.val
  feq x y := FloatOps.feq x.val y.val
  isFinite x := FloatOps.isFinite x.val
  totalLe x y := FloatOps.totalLe x.val y.val
  sumInit := ⟨FloatOps.sumInit, 0⟩

end GaussQuad
