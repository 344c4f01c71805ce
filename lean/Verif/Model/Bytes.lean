import Verif.Model.Serde
import Verif.Model.F64

/-!
The byte-level features of the crate: `zerocopy` and `rkyv`.

Neither crate's source is in the sandbox; what is modelled is their documented behaviour for the derives that stand in
/repo: `zerocopy` 0.8 (/repo/Cargo.toml l.22) on a little-endian machine, `rkyv` 0.8 (/repo/Cargo.toml l.19) in its
default format: little endian, 32-bit relative pointers, root object at the end of the buffer.
-/

namespace GaussQuad

/-- the 64 bits of a float, `f64::to_bits` (/repo/src/data_api.rs l.31-39) -/
def F64.toBits (x : F64) : Nat := (if x.sign then 2 ^ 63 else 0) + x.mag

/-- `k` bytes of `n`, least significant first (/repo/src/legendre/mod.rs l.76-79 and /repo/src/data_api.rs l.27-30) -/
def leBytes : Nat → Nat → List Nat
  | 0, _ => []
  | k + 1, n => n % 256 :: leBytes k (n / 256)

/-- the number written by bytes, least significant first (/repo/src/legendre/mod.rs l.76-79 and /repo/src/data_api.rs l.27-30) -/
def ofLe : List Nat → Nat
  | [] => 0
  | b :: bs => b + 256 * ofLe bs

/-- `f64::to_le_bytes` (/repo/src/legendre/mod.rs l.76-79 and /repo/src/data_api.rs l.27-30) -/
def F64.toLe (x : F64) : List Nat := leBytes 8 x.toBits

/-- `f64::from_le_bytes` on the first eight bytes (/repo/src/legendre/mod.rs l.76-79 and /repo/src/data_api.rs l.27-30) -/
def F64.fromLe (bs : List Nat) : F64 := .ofBits (ofLe (bs.take 8))

/-! ## zerocopy: derives of the parameter type, /repo/src/data_api.rs l.31-39 -/

namespace FiniteAboveNegOne

/-- `zerocopy::IntoBytes::as_bytes`: the memory of the struct, which is that of its only field (/repo/src/data_api.rs l.31-39) -/
def asBytes (x : FiniteAboveNegOne F64) : List Nat := x.val.toLe

/-- `zerocopy::FromZeros::new_zeroed` (and what `FromZeros::zero` leaves behind): the value whose memory is all zero bytes
(/repo/src/data_api.rs l.31-39) -/
def newZeroed : FiniteAboveNegOne F64 := ⟨F64.fromLe (List.replicate 8 0)⟩

end FiniteAboveNegOne

/-! ## rkyv: derives of the parameter type and of five rule structs -/

/-- `(Node, Weight)` archived: two floats (/repo/src/legendre/mod.rs l.76-79 and /repo/src/data_api.rs l.27-30) -/
def archivePair (p : F64 × F64) : List Nat := p.1.toLe ++ p.2.toLe

/-- the archived struct: a boxed slice is a relative pointer (`i32`, from the pointer's own position) and a length
(`u32`); each parameter is its float (/repo/src/legendre/mod.rs l.76-79 and /repo/src/data_api.rs l.27-30) -/
def archiveRoot (bodyLen n : Nat) (params : List F64) : List Nat :=
  leBytes 4 (2 ^ 32 - bodyLen) ++ (leBytes 4 n ++ params.flatMap F64.toLe)

/-- `rkyv::to_bytes`: first the out-of-line slice, then the root; a distance that does not fit an `i32` is an error
(`none`).  The slice is a multiple of 16 bytes, so the root needs no padding. (/repo/src/legendre/mod.rs l.76-79 and /repo/src/data_api.rs l.27-30) -/
def archiveStruct (pairs : List (F64 × F64)) (params : List F64) : Option (List Nat) :=
  let body := pairs.flatMap archivePair
  if body.length ≤ 2 ^ 31 then some (body ++ archiveRoot body.length pairs.length params) else none

/-- `n` pairs read from memory (/repo/src/legendre/mod.rs l.76-79 and /repo/src/data_api.rs l.27-30) -/
def readPairs : Nat → List Nat → List (F64 × F64)
  | 0, _ => []
  | n + 1, bs => (F64.fromLe bs, F64.fromLe (bs.drop 8)) :: readPairs n (bs.drop 16)

/-- `k` floats read from memory (/repo/src/legendre/mod.rs l.76-79 and /repo/src/data_api.rs l.27-30) -/
def readFloats : Nat → List Nat → List F64
  | 0, _ => []
  | k + 1, bs => F64.fromLe bs :: readFloats k (bs.drop 8)

/-- a 32-bit pattern as `i32` (/repo/src/legendre/mod.rs l.76-79 and /repo/src/data_api.rs l.27-30) -/
def asI32 (b : Nat) : Int := if b < 2 ^ 31 then (b : Int) else (b : Int) - 2 ^ 32

/-- Reading an archive: the root is found from the end of the buffer, the slice through the relative pointer.
`rkyv::from_bytes_unchecked` reads without looking; here, as in the checked access, a pointer that leaves the buffer is
an error (`none`). (/repo/src/legendre/mod.rs l.76-79 and /repo/src/data_api.rs l.27-30) -/
def unarchiveStruct (k : Nat) (buf : List Nat) : Option (List (F64 × F64) × List F64) :=
  let rootLen := 8 + 8 * k
  if buf.length < rootLen then none else
  let root := buf.drop (buf.length - rootLen)
  let start : Int := (buf.length - rootLen : Nat) + asI32 (ofLe (root.take 4))
  let n := ofLe ((root.drop 4).take 4)
  if start < 0 ∨ (buf.length : Int) < start + 16 * n then none else
  some (readPairs n (buf.drop start.toNat), readFloats k (root.drop 8))

/-- `rkyv::to_bytes` of a rule.  The structs with the derive: /repo/src/legendre/mod.rs l.76-79, /repo/src/chebyshev/mod.rs
l.39-42 (first kind only), /repo/src/hermite/mod.rs l.56-59, /repo/src/laguerre/mod.rs l.58-61, /repo/src/jacobi/mod.rs
l.58-61; `none` also for the structs without it. -/
def AnyRule.archive : AnyRule F64 → Option (List Nat)
  | .legendre r | .chebyshevFirst r | .hermite r => archiveStruct r.nodeWeightPairs []
  | .laguerre r => archiveStruct r.nodeWeightPairs [r.alpha.val]
  | .jacobi r => archiveStruct r.nodeWeightPairs [r.alpha.val, r.beta.val]
  | _ => none

/-- derived `rkyv::Deserialize`: fills the struct with the decoded fields, checking nothing
(/repo/src/legendre/mod.rs l.76-79 and /repo/src/data_api.rs l.27-30) -/
def Kind.unarchive (k : Kind) (buf : List Nat) : Option (AnyRule F64) :=
  match k with
  | .legendre => (unarchiveStruct 0 buf).map fun r => .legendre ⟨r.1⟩
  | .chebyshevFirst => (unarchiveStruct 0 buf).map fun r => .chebyshevFirst ⟨r.1⟩
  | .hermite => (unarchiveStruct 0 buf).map fun r => .hermite ⟨r.1⟩
  | .laguerre => unarchiveStruct 1 buf >>= fun r =>
      match r.2 with
      | [a] => some (.laguerre ⟨⟨r.1⟩, .deserialize a⟩)
      | _ => none
  | .jacobi => unarchiveStruct 2 buf >>= fun r =>
      match r.2 with
      | [a, b] => some (.jacobi ⟨⟨r.1⟩, .deserialize a, .deserialize b⟩)
      | _ => none
  | _ => none

end GaussQuad
