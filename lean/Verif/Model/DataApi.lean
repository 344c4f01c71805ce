import Verif.Model.Ops

/-!
Model of `/repo/src/data_api.rs`: the parameter type `FiniteAboveNegOneF64` and the data access
API generated by the macros.
-/

namespace GaussQuad
open FloatOps

/-! ## `FiniteAboveNegOneF64` -/

section Param
variable {F : Type} [FloatOps F]

/-- `struct FiniteAboveNegOneF64(f64)`, /repo/src/data_api.rs l.25-41.  The field is private in Rust; the
model keeps it visible because derived deserialisers can fill it (see `FiniteAboveNegOne.deserialize`). -/
structure FiniteAboveNegOne (F : Type) where
  val : F

namespace FiniteAboveNegOne

/-- `new`, /repo/src/data_api.rs l.67-73: `if value > -1.0 && value.is_finite() { Some } else { None }` -/
def new (value : F) : Option (FiniteAboveNegOne F) :=
  if lt (lit (-1.0)) value && isFinite value then some ⟨value⟩ else none

/-- `get`, /repo/src/data_api.rs l.77-79 -/
def get (x : FiniteAboveNegOne F) : F := x.val

/-- `checked_add`, /repo/src/data_api.rs l.82-84 -/
def checkedAdd (x : FiniteAboveNegOne F) (other : F) : Option (FiniteAboveNegOne F) := new (x.get +ᶠ other)
/-- `checked_sub`, /repo/src/data_api.rs l.87-89 -/
def checkedSub (x : FiniteAboveNegOne F) (other : F) : Option (FiniteAboveNegOne F) := new (x.get -ᶠ other)
/-- `checked_mul`, /repo/src/data_api.rs l.92-94 -/
def checkedMul (x : FiniteAboveNegOne F) (other : F) : Option (FiniteAboveNegOne F) := new (x.get *ᶠ other)
/-- `checked_div`, /repo/src/data_api.rs l.97-99 -/
def checkedDiv (x : FiniteAboveNegOne F) (other : F) : Option (FiniteAboveNegOne F) := new (x.get /ᶠ other)
/-- `checked_pow`, /repo/src/data_api.rs l.102-104 -/
def checkedPow (x : FiniteAboveNegOne F) (exponent : F) : Option (FiniteAboveNegOne F) := new (pow x.get exponent)

/-- `Default::default`, /repo/src/data_api.rs l.107-113 (constructs the tuple struct directly) -/
def default : FiniteAboveNegOne F := ⟨lit 0.0⟩

/-- `impl From<FiniteAboveNegOneF64> for f64`, /repo/src/data_api.rs l.143-148 -/
def toF64 (x : FiniteAboveNegOne F) : F := x.val

/-- derived `PartialEq`, /repo/src/data_api.rs l.25: compares the field with IEEE `==` -/
def eq (x y : FiniteAboveNegOne F) : Bool := feq x.val y.val

/-- derived `PartialOrd::partial_cmp`, /repo/src/data_api.rs l.25: compares the field like
`f64::partial_cmp` (`None` for unordered) -/
def partialCmp (x y : FiniteAboveNegOne F) : Option Ordering :=
  if lt x.val y.val then some .lt
  else if feq x.val y.val then some .eq
  else if lt y.val x.val then some .gt
  else none

/-- derived `serde::Deserialize` / `rkyv::Deserialize` / `zerocopy` construction,
/repo/src/data_api.rs l.26-40: fills the tuple field with the decoded payload.
Simplification: the wire format is not modelled, the argument is the decoded `f64`. -/
def deserialize (payload : F) : FiniteAboveNegOne F := ⟨payload⟩

end FiniteAboveNegOne

/-- `InfNanNegOneOrLessError`, /repo/src/data_api.rs l.115-129 -/
inductive InfNanNegOneOrLessError where
  | mk
  deriving DecidableEq, Repr

/-- `TryFrom<f64>`, /repo/src/data_api.rs l.131-141 -/
def FiniteAboveNegOne.tryFrom (value : F) : Except InfNanNegOneOrLessError (FiniteAboveNegOne F) :=
  match FiniteAboveNegOne.new value with
  | some x => .ok x
  | none => .error .mk

/-- `ParseFiniteAboveNegOneF64Error`, /repo/src/data_api.rs l.150-173 -/
inductive ParseFiniteAboveNegOneError (ε : Type) where
  | parseError (e : ε)
  | invalidValue (e : InfNanNegOneOrLessError)

/-- `FromStr`, /repo/src/data_api.rs l.175-186.  `str::parse::<f64>` is the parameter `parse`. -/
def FiniteAboveNegOne.fromStr {ε : Type} (parse : String → Except ε F) (s : String) :
    Except (ParseFiniteAboveNegOneError ε) (FiniteAboveNegOne F) :=
  match parse s with
  | .error e => .error (.parseError e)
  | .ok value =>
    match FiniteAboveNegOne.tryFrom value with
    | .ok x => .ok x
    | .error e => .error (.invalidValue e)

/-- `Display`, `LowerExp`, `UpperExp`, /repo/src/data_api.rs l.43-62: all forward the plain value to the
corresponding formatter of `f64` (`write!(f, "{}", self.0)`, `{:e}`, `{:E}`), which is the parameter `fmt`. -/
def FiniteAboveNegOne.format (fmt : F → String) (x : FiniteAboveNegOne F) : String := fmt x.val

end Param

/-! ## Iterators -/

/-- A slice iterator (`core::slice::Iter`, `alloc::vec::IntoIter`): a window `[start, stop)` into a fixed buffer,
exactly as the two pointers of the standard library.  Wrapped by the newtypes of
/repo/src/data_api.rs l.283-416; `Map` with `|p| &p.0` commutes with everything and is modelled by mapping the
buffer. -/
structure SliceIter (α : Type) where
  buf : List α
  start : Nat
  stop : Nat

namespace SliceIter
variable {α : Type}

/-- `slice.iter()` / `boxed.into_iter()` (/repo/src/data_api.rs l.221, 236, 244, 250, 256) -/
def ofList (xs : List α) : SliceIter α := ⟨xs, 0, xs.length⟩

/-- `ExactSizeIterator::len`, /repo/src/data_api.rs l.474-479; also `count`, l.452-454 -/
def len (it : SliceIter α) : Nat := it.stop - it.start

/-- `size_hint`, /repo/src/data_api.rs l.437-439 -/
def sizeHint (it : SliceIter α) : Nat × Option Nat := (it.len, some it.len)

/-- `next`, /repo/src/data_api.rs l.432-434 -/
def next (it : SliceIter α) : Option α × SliceIter α :=
  if it.start < it.stop then (it.buf[it.start]?, { it with start := it.start + 1 }) else (none, it)

/-- `next_back`, /repo/src/data_api.rs l.464-466 -/
def nextBack (it : SliceIter α) : Option α × SliceIter α :=
  if it.start < it.stop then (it.buf[it.stop - 1]?, { it with stop := it.stop - 1 }) else (none, it)

/-- `nth`, /repo/src/data_api.rs l.447-449 (slice version: jump, exhaust if past the end) -/
def nth (it : SliceIter α) (n : Nat) : Option α × SliceIter α :=
  if it.len ≤ n then (none, { it with start := it.stop })
  else next { it with start := it.start + n }

/-- `nth_back`, /repo/src/data_api.rs l.469-471 -/
def nthBack (it : SliceIter α) (n : Nat) : Option α × SliceIter α :=
  if it.len ≤ n then (none, { it with stop := it.start })
  else nextBack { it with stop := it.stop - n }

/-- `count`, /repo/src/data_api.rs l.452-454 -/
def count (it : SliceIter α) : Nat := it.len

/-- `last` is implemented as `next_back`, /repo/src/data_api.rs l.457-459 -/
def last (it : SliceIter α) : Option α := it.nextBack.1

/-- `as_slice` / `AsRef`, /repo/src/data_api.rs l.363-365, 368-375, 402-404, 407-414 -/
def asSlice (it : SliceIter α) : List α := (it.buf.drop it.start).take (it.stop - it.start)

end SliceIter

/-- `core::ops::Range<u32>` mapped with `d as f64`: the iterator of the node rules,
/repo/src/data_api.rs l.535-552. -/
structure RangeIter where
  start : Nat
  stop : Nat

namespace RangeIter

/-- `0..degree` (/repo/src/data_api.rs l.524) -/
def ofDegree (n : Nat) : RangeIter := ⟨0, n⟩
/-- `len` / `count` / `size_hint` (/repo/src/data_api.rs l.438, 453, 477) -/
def len (it : RangeIter) : Nat := it.stop - it.start
/-- `Range::next` (/repo/src/data_api.rs l.433) -/
def next (it : RangeIter) : Option Nat × RangeIter :=
  if it.start < it.stop then (some it.start, { it with start := it.start + 1 }) else (none, it)
/-- `Range::next_back` (/repo/src/data_api.rs l.465) -/
def nextBack (it : RangeIter) : Option Nat × RangeIter :=
  if it.start < it.stop then (some (it.stop - 1), { it with stop := it.stop - 1 }) else (none, it)
/-- `Iterator::nth` of `Map<Range<u32>, _>` is the provided method: advance one by one, then `next`. (/repo/src/data_api.rs l.448) -/
def nth (it : RangeIter) : Nat → Option Nat × RangeIter
  | 0 => it.next
  | n + 1 => match it.next with
    | (none, it') => (none, it')
    | (some _, it') => it'.nth n
/-- `DoubleEndedIterator::nth_back`, provided method. (/repo/src/data_api.rs l.470) -/
def nthBack (it : RangeIter) : Nat → Option Nat × RangeIter
  | 0 => it.nextBack
  | n + 1 => match it.nextBack with
    | (none, it') => (none, it')
    | (some _, it') => it'.nthBack n
/-- `last` is implemented as `next_back`, /repo/src/data_api.rs l.457-459 -/
def last (it : RangeIter) : Option Nat := it.nextBack.1

/-- the items still to be yielded when the iterator is drained with `next` (what a `for` loop over it sees, /repo/src/data_api.rs l.496-518) -/
def items (it : RangeIter) : List Nat := List.range' it.start it.len

end RangeIter

/-! ## The rules' data access functions -/

section Rules
variable {F : Type} [FloatOps F]

/-- A rule that stores node-weight pairs (`GaussLegendre`, `GaussHermite`, both `GaussChebyshev`;
`GaussLaguerre` and `GaussJacobi` add their parameters).  /repo/src/legendre/mod.rs l.78-80 etc. -/
structure Rule (F : Type) where
  nodeWeightPairs : List (F × F)

namespace Rule
/-- `nodes()`, /repo/src/data_api.rs l.243-245 -/
def nodes (r : Rule F) : SliceIter F := .ofList (r.nodeWeightPairs.map (·.1))
/-- `weights()`, /repo/src/data_api.rs l.249-251 -/
def weights (r : Rule F) : SliceIter F := .ofList (r.nodeWeightPairs.map (·.2))
/-- `iter()`, /repo/src/data_api.rs l.255-257 -/
def iter (r : Rule F) : SliceIter (F × F) := .ofList r.nodeWeightPairs
/-- `IntoIterator for Rule`, /repo/src/data_api.rs l.216-223 -/
def intoIter (r : Rule F) : SliceIter (F × F) := .ofList r.nodeWeightPairs
/-- `IntoIterator for &Rule`, /repo/src/data_api.rs l.231-238 -/
def refIntoIter (r : Rule F) : SliceIter (F × F) := .ofList r.nodeWeightPairs
/-- `as_node_weight_pairs()`, /repo/src/data_api.rs l.261-263 -/
def asNodeWeightPairs (r : Rule F) : List (F × F) := r.nodeWeightPairs
/-- `into_node_weight_pairs()`, /repo/src/data_api.rs l.270-272 -/
def intoNodeWeightPairs (r : Rule F) : List (F × F) := r.nodeWeightPairs
/-- `degree()`, /repo/src/data_api.rs l.276-278 -/
def degree (r : Rule F) : Nat := r.nodeWeightPairs.length
end Rule

/-- A rule that stores only its degree (`Midpoint`, `Trapezoid`, `Simpson`): a `NonZeroU32`.
/repo/src/midpoint/mod.rs l.63-65 etc. -/
structure NodeRule where
  degree : Nat
  pos : 0 < degree
  lt : degree < 2 ^ 32

namespace NodeRule
/-- `iter()`, `into_iter()`: the underlying range, /repo/src/data_api.rs l.500-502, 515-517, 523-525 -/
def range (r : NodeRule) : RangeIter := .ofDegree r.degree
/-- the nodes produced by draining `iter()`: `(0..degree).map(|d| d as f64)`, /repo/src/data_api.rs l.523-525 -/
def nodes (r : NodeRule) : List F := r.range.items.map ofNat
/-- `change_degree`, /repo/src/midpoint/mod.rs l.107-109, /repo/src/trapezoid/mod.rs l.104-106,
/repo/src/simpson/mod.rs l.133-135.  The argument is a `NonZeroU32`. -/
def changeDegree (_r : NodeRule) (n : Nat) (pos : 0 < n) (lt : n < 2 ^ 32) : NodeRule := ⟨n, pos, lt⟩
/-- `From<NonZeroU32>`, /repo/src/midpoint/mod.rs l.114-119, /repo/src/trapezoid/mod.rs l.111-116,
/repo/src/simpson/mod.rs l.140-145 -/
def ofDegree (n : Nat) (pos : 0 < n) (lt : n < 2 ^ 32) : NodeRule := ⟨n, pos, lt⟩
/-- `new`, /repo/src/midpoint/mod.rs l.71-73, /repo/src/trapezoid/mod.rs l.69-71, /repo/src/simpson/mod.rs l.63-65 -/
def new (n : Nat) (pos : 0 < n) (lt : n < 2 ^ 32) : NodeRule := ⟨n, pos, lt⟩
end NodeRule

end Rules

end GaussQuad
