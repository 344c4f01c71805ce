import Verif.Model.Ops
import Verif.Model.AnyRule

/-!
# Specification of the calling protocol

Which points a rule must evaluate, in which order, and how the values are combined.  Stated with plain list
functions over the float interface, without the model's monadic sums.
-/

namespace GaussQuad.Spec
open FloatOps
variable {F : Type} [FloatOps F]

/-- The points at which a rule calls the integrand on `[a, b]`, in calling order. -/
def points (a b : F) : AnyRule F → List F
  | .midpoint r =>
      (List.range r.degree).map fun i => a +ᶠ (b -ᶠ a) /ᶠ ofNat r.degree *ᶠ (lit 0.5 +ᶠ ofNat i)
  | .trapezoid r =>
      [a, b] ++ (List.range (r.degree - 1)).map fun i => a +ᶠ ofNat (i + 1) *ᶠ ((b -ᶠ a) /ᶠ ofNat r.degree)
  | .simpson r =>
      ((List.range (r.degree - 1)).map fun i => a +ᶠ ofNat (i + 1) *ᶠ ((b -ᶠ a) /ᶠ ofNat r.degree)) ++
      ((List.range r.degree).map fun i =>
        a +ᶠ (lit 2.0 *ᶠ ofNat (i + 1) -ᶠ lit 1.0) *ᶠ ((b -ᶠ a) /ᶠ ofNat r.degree) /ᶠ lit 2.0) ++ [a, b]
  | .legendre r => r.nodeWeightPairs.map fun p => lit 0.5 *ᶠ ((b -ᶠ a) *ᶠ p.1 +ᶠ (b +ᶠ a))
  | .chebyshevFirst r => r.nodeWeightPairs.map fun p => lit 0.5 *ᶠ ((b -ᶠ a) *ᶠ p.1 +ᶠ (b +ᶠ a))
  | .chebyshevSecond r => r.nodeWeightPairs.map fun p => lit 0.5 *ᶠ ((b -ᶠ a) *ᶠ p.1 +ᶠ (b +ᶠ a))
  | .jacobi r => r.nodeWeightPairs.map fun p => lit 0.5 *ᶠ ((b -ᶠ a) *ᶠ p.1 +ᶠ (b +ᶠ a))
  | .hermite r => r.nodeWeightPairs.map fun p => p.1
  | .laguerre r => r.nodeWeightPairs.map fun p => p.1

/-- sum of `y_i * w_i` in index order, as `iter().map(|(x, w)| f(x) * w).sum()` -/
def weighted (pairs : List (F × F)) (ys : List F) : F :=
  (List.zipWith (fun y p => y *ᶠ p.2) ys pairs).foldl (· +ᶠ ·) sumInit

/-- How the values of the integrand at `points` are combined into the result. -/
def combine (a b : F) : AnyRule F → List F → F
  | .midpoint r, ys => ys.foldl (· +ᶠ ·) sumInit *ᶠ ((b -ᶠ a) /ᶠ ofNat r.degree)
  | .trapezoid r, ys =>
      ((ys.getD 0 sumInit +ᶠ ys.getD 1 sumInit) /ᶠ lit 2.0 +ᶠ (ys.drop 2).foldl (· +ᶠ ·) sumInit)
        *ᶠ ((b -ᶠ a) /ᶠ ofNat r.degree)
  | .simpson r, ys =>
      let n := r.degree
      let edges := (ys.take (n - 1)).foldl (· +ᶠ ·) sumInit
      let mids := ((ys.drop (n - 1)).take (n - 1)).foldl (· +ᶠ ·) sumInit
      (b -ᶠ a) /ᶠ ofNat n /ᶠ lit 6.0 *ᶠ
        (lit 2.0 *ᶠ edges +ᶠ lit 4.0 *ᶠ mids +ᶠ lit 4.0 *ᶠ ys.getD (2 * n - 2) sumInit
          +ᶠ ys.getD (2 * n - 1) sumInit +ᶠ ys.getD (2 * n) sumInit)
  | .legendre r, ys => lit 0.5 *ᶠ (b -ᶠ a) *ᶠ weighted r.nodeWeightPairs ys
  | .chebyshevFirst r, ys => weighted r.nodeWeightPairs ys *ᶠ (lit 0.5 *ᶠ (b -ᶠ a))
  | .chebyshevSecond r, ys => weighted r.nodeWeightPairs ys *ᶠ (lit 0.5 *ᶠ (b -ᶠ a))
  | .jacobi r, ys => lit 0.5 *ᶠ (b -ᶠ a) *ᶠ weighted r.nodeWeightPairs ys
  | .hermite r, ys => weighted r.nodeWeightPairs ys
  | .laguerre r, ys => weighted r.nodeWeightPairs ys

/-- The caller's `FnMut` closure: a state `σ`, updated by every call. -/
abbrev Closure (σ F : Type) := σ → F → F × σ

/-- Calling a closure on a list of points one after the other: all values and the final state. -/
def callAll {σ : Type} (f : Closure σ F) : σ → List F → List F × σ
  | s, [] => ([], s)
  | s, x :: xs => ((f s x).1 :: (callAll f (f s x).2 xs).1, (callAll f (f s x).2 xs).2)

/-- The closure with a log of the arguments it was called with. -/
def logged {σ : Type} (f : Closure σ F) (x : F) : StateM (List F × σ) F :=
  fun st => ((f st.2 x).1, (st.1 ++ [x], (f st.2 x).2))

/-- An integrand that logs its arguments and panics on some of them; the log survives the panic. -/
def panicking (bad : F → Bool) (f : F → F) (x : F) : ExceptT Unit (StateM (List F)) F := do
  modify (· ++ [x])
  if bad x then throw () else pure (f x)

end GaussQuad.Spec
