import Verif.Model.AnyRule

/-!
The code generated by `derive(serde::Serialize, serde::Deserialize)` for the rule structs, on serde's data model.
-/

namespace GaussQuad
open FloatOps
variable {F : Type} [FloatOps F]

/-- A value of serde's data model as a format hands it to a visitor.  Simplification: only the kinds the crate's types can meet.
(/repo/src/legendre/mod.rs l.75 and the like on the other rule structs) -/
inductive Wire (F : Type) where
  | unit
  | float (x : F)
  | uint (n : Nat)
  | seq (items : List (Wire F))
  | map (entries : List (String × Wire F))

/-- What the model has to know of a format. (/repo/src/legendre/mod.rs l.75 and the like on the other rule structs) -/
structure Format where
  /-- structs are written as maps with field names (JSON, TOML, ...) instead of sequences (bincode, postcard, ...) -/
  named : Bool
  /-- `serialize_f64` writes NaN and infinities as null, as `serde_json` does -/
  nullNonFinite : Bool

/-- `serialize_f64` of the format (/repo/src/legendre/mod.rs l.75 and the like on the other rule structs) -/
def serFloat (fmt : Format) (x : F) : Wire F := if fmt.nullNonFinite = true ∧ isFinite x = false then .unit else .float x

/-- `f64::deserialize`: serde's visitor also accepts integers and converts them with `as`
(/repo/src/legendre/mod.rs l.75 and the like on the other rule structs) -/
def deFloat : Wire F → Option F
  | .float x => some x
  | .uint n => some (ofNat n)
  | _ => none

/-- `(Node, Weight)` is a tuple of two floats, `Box<[(Node, Weight)]>` a sequence of them, /repo/src/legendre/mod.rs l.82 -/
def serPairs (fmt : Format) (l : List (F × F)) : Wire F := .seq (l.map fun p => .seq [serFloat fmt p.1, serFloat fmt p.2])

/-- a tuple is refused unless the sequence has exactly two items (/repo/src/legendre/mod.rs l.75 and the like on the other rule structs) -/
def dePair : Wire F → Option (F × F)
  | .seq [x, y] => do
      let a ← deFloat x
      let b ← deFloat y
      pure (a, b)
  | _ => none

/-- /repo/src/legendre/mod.rs l.75 and the like on the other rule structs -/
def dePairs : Wire F → Option (List (F × F))
  | .seq l => l.mapM dePair
  | _ => none

/-- `NonZeroU32`, /repo/src/midpoint/mod.rs l.64 -/
def deDegree : Wire F → Option NodeRule
  | .uint n => if h : 0 < n ∧ n < 2 ^ 32 then some ⟨n, h.1, h.2⟩ else none
  | _ => none

/-- the derived `Serialize` of a struct (/repo/src/legendre/mod.rs l.75 and the like on the other rule structs) -/
def serStruct (fmt : Format) (fields : List (String × Wire F)) : Wire F :=
  if fmt.named then .map fields else .seq (fields.map (·.2))

/-- one field in the derived `visit_map`: a missing field and a repeated field are errors
(/repo/src/legendre/mod.rs l.75 and the like on the other rule structs) -/
def getField (entries : List (String × Wire F)) (name : String) : Option (Wire F) :=
  match entries.filter (fun e => e.1 == name) with
  | [e] => some e.2
  | _ => none

/-- the fields found by the derived `Deserialize`: `visit_map` ignores unknown fields (no `deny_unknown_fields`), `visit_seq` wants exactly the declared number
(/repo/src/legendre/mod.rs l.75 and the like on the other rule structs) -/
def deStruct (names : List String) : Wire F → Option (List (Wire F))
  | .map entries => names.mapM (getField entries)
  | .seq items => if items.length = names.length then some items else none
  | _ => none

/-- which of the nine structs (/repo/src/legendre/mod.rs l.75 and the like on the other rule structs) -/
inductive Kind where
  | midpoint | trapezoid | simpson | legendre | chebyshevFirst | chebyshevSecond | jacobi | hermite | laguerre
  deriving DecidableEq, Repr

/-- /repo/src/legendre/mod.rs l.75 and the like on the other rule structs -/
def AnyRule.kind : AnyRule F → Kind
  | .midpoint _ => .midpoint
  | .trapezoid _ => .trapezoid
  | .simpson _ => .simpson
  | .legendre _ => .legendre
  | .chebyshevFirst _ => .chebyshevFirst
  | .chebyshevSecond _ => .chebyshevSecond
  | .jacobi _ => .jacobi
  | .hermite _ => .hermite
  | .laguerre _ => .laguerre

/-- the declared fields: /repo/src/midpoint/mod.rs l.63-65, /repo/src/trapezoid/mod.rs l.52-54, /repo/src/simpson/mod.rs l.57-59, /repo/src/legendre/mod.rs l.81-83,
/repo/src/chebyshev/mod.rs l.44-46 and l.142-144, /repo/src/jacobi/mod.rs l.63-67, /repo/src/hermite/mod.rs l.61-63, /repo/src/laguerre/mod.rs l.63-66 -/
def Kind.fields : Kind → List String
  | .midpoint | .trapezoid | .simpson => ["degree"]
  | .jacobi => ["node_weight_pairs", "alpha", "beta"]
  | .laguerre => ["node_weight_pairs", "alpha"]
  | _ => ["node_weight_pairs"]

/-- derived `Serialize` (the newtype `FiniteAboveNegOneF64` is written like its field, /repo/src/data_api.rs l.26-41) -/
def AnyRule.serialize (fmt : Format) : AnyRule F → Wire F
  | .midpoint r | .trapezoid r | .simpson r => serStruct fmt [("degree", .uint r.degree)]
  | .legendre r | .chebyshevFirst r | .chebyshevSecond r | .hermite r => serStruct fmt [("node_weight_pairs", serPairs fmt r.nodeWeightPairs)]
  | .jacobi r => serStruct fmt [("node_weight_pairs", serPairs fmt r.nodeWeightPairs), ("alpha", serFloat fmt r.alpha.val), ("beta", serFloat fmt r.beta.val)]
  | .laguerre r => serStruct fmt [("node_weight_pairs", serPairs fmt r.nodeWeightPairs), ("alpha", serFloat fmt r.alpha.val)]

/-- the fields put into the struct (/repo/src/legendre/mod.rs l.75 and the like on the other rule structs) -/
def Kind.build (k : Kind) (ws : List (Wire F)) : Option (AnyRule F) :=
  match k, ws with
  | .midpoint, [d] => (deDegree d).map .midpoint
  | .trapezoid, [d] => (deDegree d).map .trapezoid
  | .simpson, [d] => (deDegree d).map .simpson
  | .legendre, [p] => (dePairs p).map fun l => .legendre ⟨l⟩
  | .chebyshevFirst, [p] => (dePairs p).map fun l => .chebyshevFirst ⟨l⟩
  | .chebyshevSecond, [p] => (dePairs p).map fun l => .chebyshevSecond ⟨l⟩
  | .hermite, [p] => (dePairs p).map fun l => .hermite ⟨l⟩
  | .jacobi, [p, a, b] => do
      let l ← dePairs p
      let α ← deFloat a
      let β ← deFloat b
      pure (.jacobi ⟨⟨l⟩, .deserialize α, .deserialize β⟩)
  | .laguerre, [p, a] => do
      let l ← dePairs p
      let α ← deFloat a
      pure (.laguerre ⟨⟨l⟩, .deserialize α⟩)
  | _, _ => none

/-- derived `Deserialize` (/repo/src/legendre/mod.rs l.75 and the like on the other rule structs) -/
def Kind.deserialize (k : Kind) (w : Wire F) : Option (AnyRule F) := deStruct k.fields w >>= k.build

end GaussQuad
