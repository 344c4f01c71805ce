import Verif.Model.Legendre
import Verif.Model.Chebyshev

/-!
The constructors of the Gauss-Legendre and Gauss-Chebyshev rules with machine integers and memory: every `usize` operation is done modulo 2^64 or panics, and
`collect()` first reserves the memory of the boxed slice.  The models in `Model/Legendre` and `Model/Chebyshev` leave both out.
-/

namespace GaussQuad
open FloatOps
variable {F : Type} [FloatOps F]

/-- how a call can end: with a value, by unwinding, or by aborting the process (of the constructors, e.g. /repo/src/legendre/mod.rs l.92-99) -/
inductive Outcome (α : Type) where
  | done (x : α)
  | panic
  | abort
  deriving DecidableEq, Repr

/-- the panics of an `Option` computation (e.g. /repo/src/legendre/bogaert/mod.rs l.110-121) -/
def Outcome.ofOption {α : Type} : Option α → Outcome α
  | some x => .done x
  | none => .panic

/-- The memory allocator: whether a request of so many bytes is granted.  Assumed about the standard library.
(asked by `collect`, /repo/src/legendre/mod.rs l.97, /repo/src/chebyshev/mod.rs l.57, 162) -/
structure Allocator where
  grants : Nat → Bool

/-- `x * y` on a 64-bit `usize` (/repo/src/legendre/bogaert/mod.rs l.114) -/
def usizeMul (mode : Overflow) (x y : Nat) : Option Nat :=
  if x * y < 2 ^ 64 then some (x * y)
  else match mode with
    | .checked => none
    | .wrapping => some (x * y % 2 ^ 64)

/-- `x - y` on a 64-bit `usize`, for `y < 2^64` (/repo/src/legendre/bogaert/mod.rs l.113-115) -/
def usizeSub (mode : Overflow) (x y : Nat) : Option Nat :=
  if y ≤ x then some (x - y)
  else match mode with
    | .checked => none
    | .wrapping => some (x + 2 ^ 64 - y)

/-- `ThetaWeightPair::new` with machine integers, /repo/src/legendre/bogaert/mod.rs l.110-121.  The subtractions inside `tabulated_pair` and the Bessel tables index a
slice, so that a wrapped value panics as well; they stay `csub`. -/
def Bogaert.thetaWeightPairMachine (mode : Overflow) (n k : Nat) : Option (Bogaert.ThetaWeightPair F) :=
  if n ≤ 100 then do
    let km1 ← usizeSub mode k 1
    Bogaert.tabulatedPair n km1
  else do
    let twoK ← usizeMul mode 2 k
    let twoKm1 ← usizeSub mode twoK 1
    if twoKm1 > n then do
      let d ← usizeSub mode n k
      let d1 ← usizeAddOne mode d
      let p ← Bogaert.computePair n d1
      pure { p with theta := pi -ᶠ p.theta }
    else Bogaert.computePair n k

/-- `NodeWeightPair::new(n, k).into_tuple()`, /repo/src/legendre/bogaert/mod.rs l.71-94 -/
def Bogaert.nodeWeightPairMachine (mode : Overflow) (n k : Nat) : Option (F × F) := do
  let p ← Bogaert.thetaWeightPairMachine mode n k
  pure (cos p.theta, p.weight)

/-- `collect::<Box<[(f64, f64)]>>()` of an iterator of known length, sequential or parallel: the vector of `len` pairs of 16 bytes is reserved before the first item is
computed.  More than `isize::MAX` bytes is a "capacity overflow" panic, a refused request aborts (`alloc::raw_vec`, `handle_alloc_error`); an empty vector needs no memory.
Used in /repo/src/legendre/mod.rs l.94-97, l.105-109 and /repo/src/chebyshev/mod.rs l.54-57, l.75-79, l.152-162, l.172-183. -/
def collectPairs (A : Allocator) (len : Nat) (items : Option (List (F × F))) : Outcome (Rule F) :=
  if 16 * len ≥ 2 ^ 63 then .panic
  else if len = 0 ∨ A.grants (16 * len) = true then .ofOption (items.map Rule.mk)
  else .abort

/-- the items of `(1..hi).rev()` and of its parallel counterpart, and their number
(/repo/src/legendre/mod.rs l.94-97, 105-109, /repo/src/chebyshev/mod.rs l.54-57, 75-79, 152-162, 172-183) -/
def collectRange (A : Allocator) (s : Option Schedule) (hi : Nat) (g : Nat → Option (F × F)) : Outcome (Rule F) :=
  collectPairs A (hi - 1) (match s with
    | none => (rangeRev hi).mapM g
    | some s => parCollect s (rangeRev hi) g)

/-- `GaussLegendre::new` (`s = none`) and `par_new`, /repo/src/legendre/mod.rs l.92-111 -/
def GaussLegendre.newMachine (A : Allocator) (mode : Overflow) (s : Option Schedule) (degree : Nat) : Outcome (Rule F) :=
  match usizeAddOne mode degree with
  | none => .panic
  | some hi => collectRange A s hi (Bogaert.nodeWeightPairMachine mode degree)

/-- `GaussChebyshevFirstKind::new` and `par_new`, /repo/src/chebyshev/mod.rs l.50-81 -/
def GaussChebyshevFirstKind.newMachine (A : Allocator) (mode : Overflow) (s : Option Schedule) (degree : Nat) : Outcome (Rule F) :=
  match usizeAddOne mode degree with
  | none => .panic
  | some hi => collectRange A s hi (fun i => some (GaussChebyshevFirstKind.pair degree i))

/-- `GaussChebyshevSecondKind::new` and `par_new`, /repo/src/chebyshev/mod.rs l.148-185 -/
def GaussChebyshevSecondKind.newMachine (A : Allocator) (mode : Overflow) (s : Option Schedule) (degree : Nat) : Outcome (Rule F) :=
  match usizeAddOne mode degree with
  | none => .panic
  | some hi => collectRange A s hi (fun i => some (GaussChebyshevSecondKind.pair degree i))

end GaussQuad
