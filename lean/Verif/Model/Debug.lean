import Verif.Model.Serde
import Verif.Model.Report

/-!
# `Debug` output

Model of the code generated by `derive(Debug)` for the public types of the crate, on top of the builders of `core::fmt`
(`debug_struct`, `debug_tuple`, `debug_list` and the `PadAdapter` behind `{:#?}`).  All of these hand the options of the
placeholder on to the fields, so a `fmt` method is a function from the options to the text it writes.
Texts are lists of characters.  How the standard library prints a float, an integer or a `ParseFloatError` is a parameter.
-/

namespace GaussQuad

/-- a `Debug::fmt` method: the text written for given options (/repo/src/data_api.rs l.25, 115, 150, 284, 314, 345, 386, 537) -/
abbrev Dbg := FmtOpts → List Char

/-- as a method on the formatter of `Model/Report` (/repo/src/data_api.rs l.25, 115, 150, 284, 314, 345, 386, 537) -/
def Dbg.toFmt (d : Dbg) : Fmt := fun f => f.writeStr (String.ofList (d f.opts))

/-- the standard library's `Debug` of `f64`, `u32`, `NonZeroU32` (printed like `u32`) and `ParseFloatError`
(/repo/src/data_api.rs l.25, 115, 150, 284, 314, 345, 386, 537) -/
structure StdDebug (F ε : Type) where
  float : F → Dbg
  uint : Nat → Dbg
  parseError : ε → Dbg

/-- `core::fmt::builders::PadAdapter::write_str`: four spaces before the first character of each line; the flag is `on_newline`
(/repo/src/data_api.rs l.25, 115, 150, 284, 314, 345, 386, 537) -/
def pad : Bool → List Char → List Char
  | _, [] => []
  | b, c :: t => (if b then [' ', ' ', ' ', ' '] else []) ++ c :: pad (c == '\n') t

/-- the texts with ", " between them (/repo/src/data_api.rs l.25, 115, 150, 284, 314, 345, 386, 537) -/
def commaSep : List (List Char) → List Char
  | [] => []
  | [x] => x
  | x :: y :: r => x ++ (',' :: ' ' :: commaSep (y :: r))

/-- one field, entry or item in the pretty form: through a fresh `PadAdapter`, followed by ",\n"
(/repo/src/data_api.rs l.25, 115, 150, 284, 314, 345, 386, 537) -/
def prettyItem (t : List Char) : List Char := pad true (t ++ [',', '\n'])

/-- `f.debug_struct(name).field(..)...finish()` with at least one field (/repo/src/data_api.rs l.25, 115, 150, 284, 314, 345, 386, 537) -/
def debugStruct (name : List Char) (fields : List (List Char × Dbg)) : Dbg := fun o =>
  if o.alternate then name ++ (" {\n".toList ++ ((fields.map fun p => prettyItem (p.1 ++ (": ".toList ++ p.2 o))).flatten ++ "}".toList))
  else name ++ (" { ".toList ++ (commaSep (fields.map fun p => p.1 ++ (": ".toList ++ p.2 o)) ++ " }".toList))

/-- `f.debug_tuple(name).field(..)...finish()` with at least one field; the tuple types use an empty name
(/repo/src/data_api.rs l.25, 115, 150, 284, 314, 345, 386, 537) -/
def debugTuple (name : List Char) (fields : List Dbg) : Dbg := fun o =>
  if o.alternate then name ++ ("(\n".toList ++ ((fields.map fun d => prettyItem (d o)).flatten ++ ")".toList))
  else name ++ ("(".toList ++ (commaSep (fields.map fun d => d o) ++ ")".toList))

/-- `f.debug_list().entries(..).finish()`: nothing is written between the brackets of an empty list
(/repo/src/data_api.rs l.25, 115, 150, 284, 314, 345, 386, 537) -/
def debugList (items : List Dbg) : Dbg := fun o =>
  if o.alternate ∧ items ≠ [] then "[\n".toList ++ ((items.map fun d => prettyItem (d o)).flatten ++ "]".toList)
  else "[".toList ++ (commaSep (items.map fun d => d o) ++ "]".toList)

section
variable {F ε : Type} [FloatOps F]

/-- `(Node, Weight)` (/repo/src/legendre/mod.rs l.74-83) -/
def debugPair (std : StdDebug F ε) (p : F × F) : Dbg := debugTuple [] [std.float p.1, std.float p.2]

/-- `Box<[(Node, Weight)]>` (/repo/src/legendre/mod.rs l.74-83) -/
def debugPairs (std : StdDebug F ε) (l : List (F × F)) : Dbg := debugList (l.map (debugPair std))

/-- `derive(Debug)` on `FiniteAboveNegOneF64`, /repo/src/data_api.rs l.25-41 -/
def FiniteAboveNegOne.debug (std : StdDebug F ε) (x : FiniteAboveNegOne F) : Dbg := debugTuple "FiniteAboveNegOneF64".toList [std.float x.val]

/-- `derive(Debug)` on the unit struct `InfNanNegOneOrLessError`, /repo/src/data_api.rs l.115-118: `f.write_str(name)` -/
def InfNanNegOneOrLessError.debug (_e : InfNanNegOneOrLessError) : Dbg := fun _ => "InfNanNegOneOrLessError".toList

/-- `derive(Debug)` on `ParseFiniteAboveNegOneF64Error`, /repo/src/data_api.rs l.150-155 -/
def ParseFiniteAboveNegOneError.debug (std : StdDebug F ε) : ParseFiniteAboveNegOneError ε → Dbg
  | .parseError e => debugTuple "ParseError".toList [std.parseError e]
  | .invalidValue e => debugTuple "InvalidValue".toList [e.debug]

/-- the names of the structs: /repo/src/midpoint/mod.rs l.63, /repo/src/trapezoid/mod.rs l.52, /repo/src/simpson/mod.rs l.57, /repo/src/legendre/mod.rs l.81,
/repo/src/chebyshev/mod.rs l.44 and l.142, /repo/src/jacobi/mod.rs l.63, /repo/src/hermite/mod.rs l.61, /repo/src/laguerre/mod.rs l.63 -/
def Kind.structName : Kind → String
  | .midpoint => "Midpoint"
  | .trapezoid => "Trapezoid"
  | .simpson => "Simpson"
  | .legendre => "GaussLegendre"
  | .chebyshevFirst => "GaussChebyshevFirstKind"
  | .chebyshevSecond => "GaussChebyshevSecondKind"
  | .jacobi => "GaussJacobi"
  | .hermite => "GaussHermite"
  | .laguerre => "GaussLaguerre"

/-- the fields of the nine rule structs with their names in the order of the declarations (/repo/src/legendre/mod.rs l.74-83 and the like) -/
def AnyRule.debugFields (std : StdDebug F ε) : AnyRule F → List (List Char × Dbg)
  | .midpoint r => [("degree".toList, std.uint r.degree)]
  | .trapezoid r => [("degree".toList, std.uint r.degree)]
  | .simpson r => [("degree".toList, std.uint r.degree)]
  | .legendre r => [("node_weight_pairs".toList, debugPairs std r.nodeWeightPairs)]
  | .chebyshevFirst r => [("node_weight_pairs".toList, debugPairs std r.nodeWeightPairs)]
  | .chebyshevSecond r => [("node_weight_pairs".toList, debugPairs std r.nodeWeightPairs)]
  | .hermite r => [("node_weight_pairs".toList, debugPairs std r.nodeWeightPairs)]
  | .jacobi r => [("node_weight_pairs".toList, debugPairs std r.nodeWeightPairs), ("alpha".toList, r.alpha.debug std), ("beta".toList, r.beta.debug std)]
  | .laguerre r => [("node_weight_pairs".toList, debugPairs std r.nodeWeightPairs), ("alpha".toList, r.alpha.debug std)]

/-- `derive(Debug)` on the nine rule structs, at the lines before those of `Kind.structName` (/repo/src/legendre/mod.rs l.74-83 and the like) -/
def AnyRule.debug (std : StdDebug F ε) (R : AnyRule F) : Dbg := debugStruct R.kind.structName.toList (R.debugFields std)

/-- `core::slice::Iter` prints as `Iter([..])`, `alloc::vec::IntoIter` as `IntoIter([..])`, with the items not yet yielded
(/repo/src/data_api.rs l.284-293, 314-322, 345-349, 386-388) -/
def SliceIter.debug (std : StdDebug F ε) (name : List Char) (it : SliceIter (F × F)) : Dbg := debugTuple name [debugPairs std it.asSlice]

/-- `core::iter::Map` prints the inner iterator and not the function (/repo/src/data_api.rs l.284-293, 314-322, 345-349, 386-388) -/
def debugMap (inner : Dbg) : Dbg := debugStruct "Map".toList [("iter".toList, inner)]

/-- the four iterator structs of a node-weight rule (/repo/src/data_api.rs l.284-293, 314-322, 345-349, 386-388) -/
inductive IterKind where
  | nodes | weights | iter | intoIter
  deriving DecidableEq, Repr

/-- the names passed to `__impl_node_weight_rule!`, e.g. /repo/src/legendre/mod.rs l.171 -/
def IterKind.suffix : IterKind → String
  | .nodes => "Nodes"
  | .weights => "Weights"
  | .iter => "Iter"
  | .intoIter => "IntoIter"

/-- `derive(Debug)` on the iterator structs of a node-weight rule, /repo/src/data_api.rs l.284-292, l.314-321, l.345-349, l.386-388.
`it` is the inner iterator over the stored pairs: the iterators over nodes and weights are `Map`s of it. -/
def debugIter (std : StdDebug F ε) (k : Kind) : IterKind → SliceIter (F × F) → Dbg
  | .nodes, it => debugTuple (k.structName.toList ++ IterKind.nodes.suffix.toList) [debugMap (it.debug std "Iter".toList)]
  | .weights, it => debugTuple (k.structName.toList ++ IterKind.weights.suffix.toList) [debugMap (it.debug std "Iter".toList)]
  | .iter, it => debugTuple (k.structName.toList ++ IterKind.iter.suffix.toList) [it.debug std "Iter".toList]
  | .intoIter, it => debugTuple (k.structName.toList ++ IterKind.intoIter.suffix.toList) [it.debug std "IntoIter".toList]

/-- `core::ops::Range<u32>` prints as `start..end`, both ends with the options of the placeholder (/repo/src/data_api.rs l.537-541) -/
def RangeIter.debug (std : StdDebug F ε) (it : RangeIter) : Dbg := fun o => std.uint it.start o ++ ("..".toList ++ std.uint it.stop o)

/-- `derive(Debug)` on `MidpointIter`, `TrapezoidIter`, `SimpsonIter`, /repo/src/data_api.rs l.537-541 -/
def debugNodeIter (std : StdDebug F ε) (k : Kind) (it : RangeIter) : Dbg := debugTuple (k.structName.toList ++ "Iter".toList) [debugMap (it.debug std)]

end

end GaussQuad
