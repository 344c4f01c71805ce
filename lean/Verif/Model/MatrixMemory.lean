import Verif.Model.Alloc
import Verif.Model.GolubRules

/-!
`golub_welsch` and the constructors that use it with machine integers and memory: the matrix is one block of `n * n` numbers, and an entry `(i, j)` is the number at
position `i + j * n` of it.  `Model/GolubWelsch` leaves both out.

What is said here about the matrix type (size of the block, panics, positions, the check of an index) is ASSUMED about nalgebra 0.34, which is not part of /repo:
`zeros(r, c)` fills a `Vec` of `r * c` numbers, the product being an ordinary `usize` product; `m[(i, j)]` asserts `i < r` and `j < c` and then goes to position
`i + j * r` without comparing it with the length of the `Vec`.
-/

namespace GaussQuad
open FloatOps
variable {F : Type} [FloatOps F]

/-- how a call that touches memory can end; `outOfBounds` is a write outside the allocated block (undefined behaviour)
(/repo/src/golub_welsch.rs l.24-61) -/
inductive MemOutcome (α : Type) where
  | done (x : α)
  | panic
  | abort
  | outOfBounds
  deriving DecidableEq, Repr

namespace MemOutcome

/-- the statements of /repo/src/golub_welsch.rs l.24-61 one after the other -/
def bind {α β : Type} : MemOutcome α → (α → MemOutcome β) → MemOutcome β
  | .done x, f => f x
  | .panic, _ => .panic
  | .abort, _ => .abort
  | .outOfBounds, _ => .outOfBounds

/-- the statements of /repo/src/golub_welsch.rs l.24-61 one after the other -/
instance : Monad MemOutcome where
  pure := .done
  bind := MemOutcome.bind

/-- the panics of an `Option` computation (/repo/src/golub_welsch.rs l.35) -/
def ofOption {α : Type} : Option α → MemOutcome α
  | some x => .done x
  | none => .panic

/-- the outcomes of `Model/Alloc` (/repo/src/golub_welsch.rs l.45-56) -/
def ofOutcome {α : Type} : Outcome α → MemOutcome α
  | .done x => .done x
  | .panic => .panic
  | .abort => .abort

end MemOutcome

/-- `x + y` on a 64-bit `usize` (/repo/src/golub_welsch.rs l.38-39) -/
def usizeAdd (mode : Overflow) (x y : Nat) : Option Nat :=
  if x + y < 2 ^ 64 then some (x + y)
  else match mode with
    | .checked => none
    | .wrapping => some ((x + y) % 2 ^ 64)

/-- The block of numbers behind a matrix: its length and its contents (those below `len`). (/repo/src/golub_welsch.rs l.32-33) -/
structure Block (F : Type) where
  len : Nat
  data : Nat → F

/-- The memory behind the rest of a constructor: what the allocator grants, and how `symmetric_eigen` and the final `collect()` of a matrix of the given size end as far as
their own memory is concerned.  Assumed about the standard library and nalgebra. (/repo/src/golub_welsch.rs l.32-56) -/
structure Memory where
  alloc : Allocator
  rest : Nat → MemOutcome Unit

/-- `SquareMatrix::zeros(n, n)`, /repo/src/golub_welsch.rs l.32-33: a vector of `n * n` numbers of 8 bytes.  More than `isize::MAX` bytes is a "capacity overflow" panic, a
refused request aborts, an empty vector needs no memory. -/
def zerosBlock (A : Allocator) (mode : Overflow) (n : Nat) : MemOutcome (Block F) :=
  match usizeMul mode n n with
  | none => .panic
  | some len =>
    if 8 * len ≥ 2 ^ 63 then .panic
    else if len = 0 ∨ A.grants (8 * len) = true then .done ⟨len, fun _ => lit 0.0⟩
    else .abort

/-- position of the entry `(i, j)` of a matrix with `n` rows (column by column) (/repo/src/golub_welsch.rs l.36-41) -/
def position (mode : Overflow) (n i j : Nat) : Option Nat := do
  let m ← usizeMul mode j n
  usizeAdd mode i m

/-- `matrix[(i, j)] = v`, /repo/src/golub_welsch.rs l.36-41: only the shape is checked -/
def writeEntry (mode : Overflow) (n : Nat) (B : Block F) (i j : Nat) (v : F) : MemOutcome (Block F) :=
  if i < n ∧ j < n then
    match position mode n i j with
    | none => .panic
    | some p => if p < B.len then .done { B with data := fun q => if q = p then v else B.data q } else .outOfBounds
  else .panic

/-- body of the loop over `idx`, /repo/src/golub_welsch.rs l.35-40 -/
def companionWrites (mode : Overflow) (n : Nat) (diag offDiag : Nat → F) (B : Block F) (idx : Nat) : MemOutcome (Block F) := do
  let B ← writeEntry mode n B idx idx (diag idx)
  let offDiagElem := offDiag idx
  let idx1 ← MemOutcome.ofOption (usizeAddOne mode idx)
  let B ← writeEntry mode n B idx idx1 offDiagElem
  writeEntry mode n B idx1 idx offDiagElem

/-- the matrix as the eigen-solver reads it (/repo/src/golub_welsch.rs l.43) -/
def Block.matrix (B : Block F) (n : Nat) : Fin n → Fin n → F := fun i j => B.data (i + j * n)

/-- the companion matrix in memory, /repo/src/golub_welsch.rs l.32-41 -/
def companionBlock (M : Memory) (mode : Overflow) (n : Nat) (diag offDiag : Nat → F) : MemOutcome (Block F) := do
  let B ← zerosBlock M.alloc mode n
  let nm1 ← MemOutcome.ofOption (usizeSub mode n 1)
  let B ← (List.range nm1).foldlM (companionWrites mode n diag offDiag) B
  writeEntry mode n B nm1 nm1 (diag nm1)

/-- `golub_welsch` with memory, /repo/src/golub_welsch.rs l.22-61 -/
def golubWelschMachine (M : Memory) (mode : Overflow) (ext : Externals F) (degree : Nat) (diag offDiag : Nat → F) (scaleFactor : F) : MemOutcome (List (F × F)) := do
  let B ← companionBlock M mode degree diag offDiag
  M.rest degree
  if h : 0 < degree then
    pure (ext.sort (eigenPairs h (ext.eig degree (B.matrix degree)) scaleFactor))
  else .panic

/-- `GaussHermite::new`, /repo/src/hermite/mod.rs l.71-76 -/
def GaussHermite.newMachine (M : Memory) (mode : Overflow) (ext : Externals F) (deg : Nat) : MemOutcome (Rule F) := do
  let nodeWeightPairs ← golubWelschMachine M mode ext deg diag offDiag (sqrt pi)
  pure ⟨nodeWeightPairs⟩

/-- `GaussLaguerre::new`, /repo/src/laguerre/mod.rs l.75-90 -/
def GaussLaguerre.newMachine (M : Memory) (mode : Overflow) (ext : Externals F) (degree : Nat) (alpha : FiniteAboveNegOne F) : MemOutcome (LaguerreRule F) := do
  let nodeWeightPairs ← golubWelschMachine M mode ext degree (diag alpha.get) (offDiag alpha.get) (gamma (alpha.get +ᶠ lit 1.0))
  pure { nodeWeightPairs := nodeWeightPairs, alpha := alpha }

/-- the general branch of `GaussJacobi::new`, /repo/src/jacobi/mod.rs l.101-143 -/
def GaussJacobi.newGeneralMachine (M : Memory) (mode : Overflow) (ext : Externals F) (deg : Nat) (alpha beta : FiniteAboveNegOne F) : MemOutcome (JacobiRule F) := do
  let pairs ← golubWelschMachine M mode ext deg (diag alpha.get beta.get) (offDiag alpha.get beta.get) (weightScale alpha.get beta.get)
  let pairs ← MemOutcome.ofOption (fixMiddle deg pairs)
  pure { nodeWeightPairs := pairs, alpha := alpha, beta := beta }

/-- `GaussJacobi::new`, /repo/src/jacobi/mod.rs l.77-144.  The single pair of the degree-1 case is boxed (16 bytes). -/
def GaussJacobi.newMachine (M : Memory) (mode : Overflow) (ext : Externals F) (deg : Nat) (alpha beta : FiniteAboveNegOne F) : MemOutcome (JacobiRule F) :=
  if feq alpha.get (lit 0.0) && feq beta.get (lit 0.0) then do
    let r ← MemOutcome.ofOutcome (GaussLegendre.newMachine M.alloc mode none deg)
    pure (ofLegendre r)
  else if feq alpha.get (lit (-0.5)) && feq beta.get (lit (-0.5)) then do
    let r ← MemOutcome.ofOutcome (GaussChebyshevFirstKind.newMachine M.alloc mode none deg)
    pure (ofChebyshevFirstKind r)
  else if feq alpha.get (lit 0.5) && feq beta.get (lit 0.5) then do
    let r ← MemOutcome.ofOutcome (GaussChebyshevSecondKind.newMachine M.alloc mode none deg)
    pure (ofChebyshevSecondKind r)
  else if deg = 1 then
    if M.alloc.grants 16 = true then
      .done { nodeWeightPairs := [(nodeOne alpha.get beta.get, weightOne alpha.get beta.get)], alpha := alpha, beta := beta }
    else .abort
  else newGeneralMachine M mode ext deg alpha beta

end GaussQuad
