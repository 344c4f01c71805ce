import Verif.Model.Ops

/-!
Code outside `/repo` that the crate calls: nalgebra's symmetric eigen-solver, the sort of the standard
library, `usize` arithmetic and rayon's work splitting.
-/

namespace GaussQuad
open FloatOps

/-- Result of `nalgebra::SquareMatrix::symmetric_eigen` on an `n`×`n` matrix
(used in /repo/src/golub_welsch.rs l.43). -/
structure SymEigen (F : Type) (n : Nat) where
  eigenvalues : Fin n → F
  /-- column `j` is the eigenvector of `eigenvalues j` -/
  eigenvectors : Fin n → Fin n → F

/-- External routines used by `golub_welsch`, /repo/src/golub_welsch.rs l.43 and l.58.  The eigen-solver is
arbitrary; `sort_unstable_by(total_cmp on the node)` is any routine returning a sorted permutation. -/
structure Externals (F : Type) [FloatOps F] where
  eig : (n : Nat) → (Fin n → Fin n → F) → SymEigen F n
  sort : List (F × F) → List (F × F)
  sort_perm : ∀ l, (sort l).Perm l
  sort_sorted : ∀ l, (sort l).Pairwise (fun p q => totalLe p.1 q.1 = true)

/-- Whether integer overflow panics (debug profile) or wraps (release profile). (concerns e.g. /repo/src/legendre/bogaert/mod.rs l.113-115) -/
inductive Overflow where
  | checked
  | wrapping
  deriving DecidableEq, Repr

/-- `x + 1` on a 64-bit `usize`; `none` is a panic.  Used for `degree.get() + 1`,
/repo/src/legendre/mod.rs l.94 and /repo/src/chebyshev/mod.rs l.54, l.153.
Simplification: 64-bit targets only. -/
def usizeAddOne (mode : Overflow) (x : Nat) : Option Nat :=
  if x + 1 < 2 ^ 64 then some (x + 1)
  else match mode with
    | .checked => none
    | .wrapping => some ((x + 1) % 2 ^ 64)

/-- `x - y` on `usize`, `none` is a panic (with overflow checks).  In release builds an underflow would
wrap to a huge index, so the following slice access would panic as well. (/repo/src/legendre/bogaert/mod.rs l.39, 59, 113, 172-197) -/
def csub (x y : Nat) : Option Nat := if y ≤ x then some (x - y) else none

/-- the items of `(1..hi).rev()` (/repo/src/legendre/mod.rs l.94-95) -/
def rangeRev (hi : Nat) : List Nat := (List.range' 1 (hi - 1)).reverse

/-- How rayon may distribute a parallel iterator: any tree of splits.  rayon's
`bridge_producer_consumer` splits at `len / 2`; the model allows any split point.
(/repo/src/legendre/mod.rs l.162-166, /repo/src/midpoint/mod.rs l.98-101, /repo/src/simpson/mod.rs l.109-122) -/
inductive Schedule where
  | leaf
  | split (mid : Nat) (left right : Schedule)

section
variable {F : Type} [FloatOps F] {α β : Type}

/-- rayon's reducer for `sum()`: `[left, right].into_iter().sum()` (rayon `iter/sum.rs`, `add`). -/
def sumReduce (l r : F) : F := sumList [l, r]

/-- `par_iter.map(g).sum::<f64>()`: leaves start from the empty sum and add the sequential sum of their items
(rayon `SumFolder::consume_iter`), inner nodes combine with `sumReduce`.
(/repo/src/legendre/mod.rs l.162-166, /repo/src/midpoint/mod.rs l.98-101, /repo/src/simpson/mod.rs l.109-122) -/
def parSumMap (s : Schedule) (xs : List α) (g : α → F) : F :=
  match s with
  | .leaf => sumReduce (sumList []) (sumList (xs.map g))
  | .split mid l r => sumReduce (parSumMap l (xs.take mid) g) (parSumMap r (xs.drop mid) g)

/-- `par_iter.map(g).collect()` for an indexed parallel iterator: every leaf writes its items to the
positions it was given.  `none` is a panic in `g`. (/repo/src/legendre/mod.rs l.105-109, /repo/src/chebyshev/mod.rs l.75-79, 172-183) -/
def parCollect (s : Schedule) (xs : List α) (g : α → Option β) : Option (List β) :=
  match s with
  | .leaf => xs.mapM g
  | .split mid l r => do
      let ls ← parCollect l (xs.take mid) g
      let rs ← parCollect r (xs.drop mid) g
      pure (ls ++ rs)

end

end GaussQuad
