import Verif.Model.Ext

/-!
# The trees rayon builds

What the theorem on the rounding of parallel sums (C121) is stated with.
-/

namespace GaussQuad.Spec

/-- The split trees of rayon's `bridge_producer_consumer` over `n` items: a piece of `n` items is split only at `n / 2`, and only if
both parts are nonempty.  Which pieces are split depends on the number of threads and on stealing, hence is left open.
(/repo/src/legendre/mod.rs l.162-166, /repo/src/midpoint/mod.rs l.98-101, /repo/src/simpson/mod.rs l.109-122) -/
def Halving : Schedule → Nat → Prop
  | .leaf, _ => True
  | .split mid l r, n => mid = n / 2 ∧ 2 ≤ n ∧ Halving l (n / 2) ∧ Halving r (n - n / 2)

/-- the number of items of the largest piece that is summed sequentially -/
def largestPiece : Schedule → Nat → Nat
  | .leaf, n => n
  | .split mid l r, n => max (largestPiece l (min mid n)) (largestPiece r (n - mid))

/-- the largest number of splits above a piece -/
def splits : Schedule → Nat
  | .leaf => 0
  | .split _ l r => max (splits l) (splits r) + 1

/-- splitting `k` times, as long as there are two items -/
def halve : Nat → Nat → Schedule
  | 0, _ => .leaf
  | k + 1, n => if 2 ≤ n then .split (n / 2) (halve k (n / 2)) (halve k (n - n / 2)) else .leaf

end GaussQuad.Spec
