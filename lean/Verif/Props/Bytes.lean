import Verif.Model.Bytes
import Verif.Props.Param
import Mathlib.Tactic.IntervalCases
import Mathlib.Data.Nat.Digits.Defs

/-!
C98: the `zerocopy` and `rkyv` features at the level of bytes.
-/

namespace GaussQuad.Props
open Spec F64 FiniteAboveNegOne

variable [L : Libm]

/-! ## bytes of numbers and floats -/

omit L in
theorem leBytes_length (k n : Nat) : (leBytes k n).length = k := by
  induction k generalizing n with
  | zero => rfl
  | succ k ih => simp [leBytes, ih]

omit L in
theorem leBytes_lt (k n : Nat) : ∀ b ∈ leBytes k n, b < 256 := by
  induction k generalizing n with
  | zero => simp [leBytes]
  | succ k ih =>
    intro b hb
    rcases List.mem_cons.1 hb with h | h
    · rw [h]; exact Nat.mod_lt _ (by norm_num)
    · exact ih _ b h

omit L in
theorem ofLe_leBytes (k n : Nat) : ofLe (leBytes k n) = n % 256 ^ k := by
  induction k generalizing n with
  | zero => simp [leBytes, ofLe, Nat.mod_one]
  | succ k ih =>
    simp only [leBytes, ofLe, ih]
    rw [pow_succ', Nat.mod_mul]

omit L in
theorem leBytes_ofLe (bs : List Nat) (h : ∀ b ∈ bs, b < 256) : leBytes bs.length (ofLe bs) = bs := by
  induction bs with
  | nil => rfl
  | cons b bs ih =>
    have hb := h b (by simp)
    have hr := ih fun c hc => h c (by simp [hc])
    simp only [List.length_cons, leBytes, ofLe]
    have h1 : (b + 256 * ofLe bs) % 256 = b := by omega
    have h2 : (b + 256 * ofLe bs) / 256 = ofLe bs := by omega
    rw [h1, h2, hr]

omit L in
theorem ofLe_lt (bs : List Nat) (h : ∀ b ∈ bs, b < 256) : ofLe bs < 256 ^ bs.length := by
  induction bs with
  | nil => simp [ofLe]
  | cons b bs ih =>
    have hb := h b (by simp)
    have hr := ih fun c hc => h c (by simp [hc])
    simp only [List.length_cons, ofLe, pow_succ']
    omega

omit L in
theorem toBits_lt (x : F64) : x.toBits < 2 ^ 64 := by
  have := x.lt_mag
  unfold F64.toBits
  split <;> omega

omit L in
theorem ofBits_toBits (x : F64) : F64.ofBits x.toBits = x := by
  obtain ⟨s, m, h⟩ := x
  unfold F64.toBits F64.ofBits
  cases s
  · have h1 : m % 2 ^ 64 = m := Nat.mod_eq_of_lt (by omega)
    have h2 : m % 2 ^ 63 = m := Nat.mod_eq_of_lt h
    simp only [Bool.false_eq_true, if_false, Nat.zero_add, h1, h2]
    congr 1
    simp only [decide_eq_false_iff_not]; omega
  · have h1 : (2 ^ 63 + m) % 2 ^ 64 = 2 ^ 63 + m := Nat.mod_eq_of_lt (by omega)
    have h2 : (2 ^ 63 + m) % 2 ^ 63 = m := by rw [Nat.add_mod_left]; exact Nat.mod_eq_of_lt h
    simp only [if_true, h1, h2]
    congr 1
    simp

omit L in
theorem toBits_ofBits (b : Nat) (h : b < 2 ^ 64) : (F64.ofBits b).toBits = b := by
  unfold F64.toBits F64.ofBits
  rw [Nat.mod_eq_of_lt h]
  by_cases hb : 2 ^ 63 ≤ b
  · simp only [hb, decide_true, if_true]; omega
  · simp only [hb, decide_false, Bool.false_eq_true, if_false]; omega

omit L in
theorem fromLe_append (x : F64) (rest : List Nat) : F64.fromLe (x.toLe ++ rest) = x := by
  unfold F64.fromLe F64.toLe
  rw [List.take_left' (leBytes_length 8 _), ofLe_leBytes, Nat.mod_eq_of_lt (lt_of_lt_of_eq (toBits_lt x) (by norm_num)), ofBits_toBits]

omit L in
theorem toLe_length (x : F64) : x.toLe.length = 8 := leBytes_length 8 _

omit L in
/-- C98, the bytes of a float: eight of them, each below 256, sign and exponent in the last; reading them back, whatever
follows, gives the same float with every bit (sign of zero, NaN payload); and every eight bytes are the bytes of a float. -/
theorem C98_float_bytes :
    (∀ x : F64, x.toLe.length = 8 ∧ (∀ b ∈ x.toLe, b < 256) ∧ (x.sign = true ↔ 128 ≤ x.toLe.getLast?.getD 0) ∧
      ∀ rest, F64.fromLe (x.toLe ++ rest) = x) ∧
    (∀ bs : List Nat, bs.length = 8 → (∀ b ∈ bs, b < 256) → (F64.fromLe bs).toLe = bs) := by
  refine ⟨fun x => ⟨toLe_length x, leBytes_lt 8 _, ?_, fromLe_append x⟩, fun bs hl hb => ?_⟩
  · have hm := x.lt_mag
    unfold F64.toLe F64.toBits
    simp only [leBytes, List.getLast?_cons_cons, List.getLast?_singleton, Option.getD_some]
    cases x.sign
    · simp only [Bool.false_eq_true, if_false, false_iff]; omega
    · simp only [if_true, true_iff]; omega
  · unfold F64.fromLe F64.toLe
    rw [List.take_of_length_le (by omega), toBits_ofBits _ (by have := ofLe_lt bs hb; rw [hl] at this; norm_num at this ⊢; exact this)]
    have := leBytes_ofLe bs hb
    rwa [hl] at this

/-- the bytes of 1.0, and of the two zeros, which `==` does not tell apart -/
example : (F64.ofBits 0x3FF0000000000000).toLe = [0, 0, 0, 0, 0, 0, 0xF0, 0x3F] ∧
    (F64.zero false).toLe ≠ (F64.zero true).toLe ∧ F64.eqb (F64.zero false) (F64.zero true) = true := by
  refine ⟨?_, ?_, ?_⟩ <;> decide

/-! ## zerocopy -/

/-- Values of the parameter type a program can obtain through the safe API with the feature `zerocopy`.  The type
derives `FromZeros` but not `FromBytes`, so no other bytes can be turned into it. -/
inductive ReachableZerocopy {ε : Type} (parse : String → Except ε F64) : FiniteAboveNegOne F64 → Prop
  | new {v x} (h : FiniteAboveNegOne.new v = some x) : ReachableZerocopy parse x
  | default : ReachableZerocopy parse FiniteAboveNegOne.default
  | newZeroed : ReachableZerocopy parse FiniteAboveNegOne.newZeroed
  | tryFrom {v x} (h : FiniteAboveNegOne.tryFrom v = .ok x) : ReachableZerocopy parse x
  | fromStr {s x} (h : FiniteAboveNegOne.fromStr parse s = .ok x) : ReachableZerocopy parse x
  | add {x y r} (hx : ReachableZerocopy parse x) (h : x.checkedAdd y = some r) : ReachableZerocopy parse r
  | sub {x y r} (hx : ReachableZerocopy parse x) (h : x.checkedSub y = some r) : ReachableZerocopy parse r
  | mul {x y r} (hx : ReachableZerocopy parse x) (h : x.checkedMul y = some r) : ReachableZerocopy parse r
  | div {x y r} (hx : ReachableZerocopy parse x) (h : x.checkedDiv y = some r) : ReachableZerocopy parse r
  | pow {x y r} (hx : ReachableZerocopy parse x) (h : x.checkedPow y = some r) : ReachableZerocopy parse r

theorem newZeroed_eq_default : FiniteAboveNegOne.newZeroed = (FiniteAboveNegOne.default : FiniteAboveNegOne F64) := by
  have h : (FiniteAboveNegOne.default : FiniteAboveNegOne F64) = ⟨F64.zero false⟩ := by
    show (⟨F64.round _ _⟩ : FiniteAboveNegOne F64) = _
    norm_num [round_zero]
  rw [h]
  unfold FiniteAboveNegOne.newZeroed
  congr 1

/-- C98, `zerocopy`: the zeroed value is the default, bit for bit, and with the zeroing operations added every value a
program can reach is still finite and above -1. -/
theorem C98_zerocopy {ε : Type} (parse : String → Except ε F64) :
    FiniteAboveNegOne.newZeroed = (FiniteAboveNegOne.default : FiniteAboveNegOne F64) ∧
    (∀ x, ReachableZerocopy parse x → x.get.isFinite = true ∧ -1 < x.get.val) ∧
    (∀ x : FiniteAboveNegOne F64, x.asBytes.length = 8 ∧ F64.fromLe x.asBytes = x.get) := by
  refine ⟨newZeroed_eq_default, fun x h => ?_, fun x => ⟨toLe_length _, ?_⟩⟩
  · cases h with
    | new h => exact valid_of_new h
    | default => exact C02_reachable_valid parse _ .default
    | newZeroed => rw [newZeroed_eq_default]; exact C02_reachable_valid parse _ .default
    | tryFrom h => exact valid_of_tryFrom h
    | fromStr h => exact C02_reachable_valid parse _ (.fromStr h)
    | add _ h => exact valid_of_new h
    | sub _ h => exact valid_of_new h
    | mul _ h => exact valid_of_new h
    | div _ h => exact valid_of_new h
    | pow _ h => exact valid_of_new h
  · have := fromLe_append x.val []
    rwa [List.append_nil] at this

/-- adding 2.5 to a zeroed parameter is a reachable history; had the type derived `FromBytes`, the bytes of -2.0 would
have been one too -/
example (parse : String → Except Unit F64) :
    ReachableZerocopy parse FiniteAboveNegOne.newZeroed ∧
    ¬ ReachableZerocopy parse ⟨F64.fromLe [0, 0, 0, 0, 0, 0, 0, 0xC0]⟩ := by
  refine ⟨.newZeroed, fun h => ?_⟩
  have h2 := ((C98_zerocopy parse).2.1 _ h).2
  have h3 : (F64.fromLe [0, 0, 0, 0, 0, 0, 0, 0xC0]) = F64.ofBits 0xC000000000000000 := by decide
  have hv : (F64.ofBits 0xC000000000000000).val = -2 := by decide +kernel
  change -1 < (F64.fromLe [0, 0, 0, 0, 0, 0, 0, 0xC0]).val at h2
  rw [h3, hv] at h2
  norm_num at h2

/-! ## rkyv -/

omit L in
theorem archiveBody_length (pairs : List (F64 × F64)) : (pairs.flatMap archivePair).length = 16 * pairs.length := by
  induction pairs with
  | nil => rfl
  | cons p ps ih =>
    simp only [List.flatMap_cons, List.length_append, archivePair, toLe_length, ih, List.length_cons]; omega

omit L in
theorem archiveParams_length (ps : List F64) : (ps.flatMap F64.toLe).length = 8 * ps.length := by
  induction ps with
  | nil => rfl
  | cons p ps ih => simp only [List.flatMap_cons, List.length_append, toLe_length, ih, List.length_cons]; omega

omit L in
theorem readPairs_body (pairs : List (F64 × F64)) (rest : List Nat) :
    readPairs pairs.length (pairs.flatMap archivePair ++ rest) = pairs := by
  induction pairs with
  | nil => rfl
  | cons p ps ih =>
    have e1 : (p :: ps).flatMap archivePair ++ rest = p.1.toLe ++ (p.2.toLe ++ (ps.flatMap archivePair ++ rest)) := by
      simp [archivePair]
    rw [e1, List.length_cons]
    have d8 : (p.1.toLe ++ (p.2.toLe ++ (ps.flatMap archivePair ++ rest))).drop 8 = p.2.toLe ++ (ps.flatMap archivePair ++ rest) :=
      List.drop_left' (toLe_length _)
    have d16 : (p.1.toLe ++ (p.2.toLe ++ (ps.flatMap archivePair ++ rest))).drop 16 = ps.flatMap archivePair ++ rest := by
      rw [← List.append_assoc]
      exact List.drop_left' (by simp [toLe_length])
    simp only [readPairs, d8, d16, fromLe_append, ih]

omit L in
theorem readFloats_params (ps : List F64) : readFloats ps.length (ps.flatMap F64.toLe) = ps := by
  induction ps with
  | nil => rfl
  | cons p ps ih =>
    have d8 : (p.toLe ++ ps.flatMap F64.toLe).drop 8 = ps.flatMap F64.toLe := List.drop_left' (toLe_length _)
    simp only [List.length_cons, List.flatMap_cons, readFloats, d8, fromLe_append, ih]

omit L in
theorem unarchive_archive (pairs : List (F64 × F64)) (params : List F64) (h : 16 * pairs.length ≤ 2 ^ 31) :
    ∃ buf, archiveStruct pairs params = some buf ∧ buf.length = 16 * pairs.length + 8 + 8 * params.length ∧
      (∀ b ∈ buf, b < 256) ∧ ∀ pre, unarchiveStruct params.length (pre ++ buf) = some (pairs, params) := by
  have hb := archiveBody_length pairs
  have hp := archiveParams_length params
  set body := pairs.flatMap archivePair with hbody
  refine ⟨body ++ archiveRoot body.length pairs.length params, ?_, ?_, ?_, fun pre => ?_⟩
  · unfold archiveStruct
    simp only [← hbody]
    rw [if_pos (by omega)]
  · simp only [archiveRoot, List.length_append, leBytes_length, hp, hb]; omega
  · intro b hmem
    simp only [archiveRoot, List.mem_append, hbody, List.mem_flatMap, archivePair] at hmem
    rcases hmem with ⟨p, -, h | h⟩ | h | h | ⟨p, -, h⟩
    · exact leBytes_lt 8 _ b h
    · exact leBytes_lt 8 _ b h
    · exact leBytes_lt 4 _ b h
    · exact leBytes_lt 4 _ b h
    · exact leBytes_lt 8 _ b h
  · set root := archiveRoot body.length pairs.length params with hroot
    have hrl : root.length = 8 + 8 * params.length := by
      simp only [hroot, archiveRoot, List.length_append, leBytes_length, hp]; omega
    have hlen : (pre ++ (body ++ root)).length = pre.length + body.length + root.length := by
      simp only [List.length_append]; omega
    have hpos : (pre ++ (body ++ root)).length - (8 + 8 * params.length) = pre.length + body.length := by omega
    have hdr : (pre ++ (body ++ root)).drop (pre.length + body.length) = root := by
      rw [← List.append_assoc]
      exact List.drop_left' (by simp)
    have ht4 : root.take 4 = leBytes 4 (2 ^ 32 - body.length) := List.take_left' (leBytes_length 4 _)
    have hd4 : root.drop 4 = leBytes 4 pairs.length ++ params.flatMap F64.toLe := List.drop_left' (leBytes_length 4 _)
    have hd8 : root.drop 8 = params.flatMap F64.toLe := by
      rw [hroot, archiveRoot, ← List.append_assoc]
      exact List.drop_left' (by simp [leBytes_length])
    have hn : ofLe ((root.drop 4).take 4) = pairs.length := by
      rw [hd4, List.take_left' (leBytes_length 4 _), ofLe_leBytes]
      exact Nat.mod_eq_of_lt (by norm_num; omega)
    have hoff : asI32 (ofLe (root.take 4)) = -(body.length : Int) := by
      rw [ht4, ofLe_leBytes]
      unfold asI32
      norm_num
      rcases Nat.eq_zero_or_pos body.length with h0 | h0
      · rw [h0]; norm_num
      · rw [Nat.mod_eq_of_lt (by omega)]
        rw [if_neg (by omega)]
        omega
    unfold unarchiveStruct
    simp only [hpos, hdr, hn, hoff, hd8]
    rw [if_neg (by omega), if_neg (by push_cast; omega)]
    have hst : (((pre.length + body.length : Nat) : Int) + -(body.length : Int)).toNat = pre.length := by omega
    rw [hst, List.drop_left' rfl, readPairs_body, readFloats_params]

omit L in
theorem archive_too_large (pairs : List (F64 × F64)) (params : List F64) (h : 2 ^ 31 < 16 * pairs.length) :
    archiveStruct pairs params = none := by
  unfold archiveStruct
  rw [if_neg (by rw [archiveBody_length]; omega)]

/-- the five structs the crate can archive -/
def archivable : AnyRule F64 → Bool
  | .legendre _ | .chebyshevFirst _ | .hermite _ | .laguerre _ | .jacobi _ => true
  | .chebyshevSecond _ | .midpoint _ | .trapezoid _ | .simpson _ => false

/-- what a rule struct stores -/
def archivedPairs : AnyRule F64 → List (F64 × F64)
  | .legendre r | .chebyshevFirst r | .chebyshevSecond r | .hermite r => r.nodeWeightPairs
  | .laguerre r => r.nodeWeightPairs
  | .jacobi r => r.nodeWeightPairs
  | _ => []

/-- number of parameters beside the pairs -/
def archivedParams : AnyRule F64 → Nat
  | .laguerre _ => 1
  | .jacobi _ => 2
  | _ => 0

omit L in
/-- C98, `rkyv`: a rule of at most 2^27 nodes, of any of the five structs with the derive and whatever floats it
holds, is archived in exactly `16 n + 8 + 8 k` bytes; reading the archive back, wherever it was moved to, gives the rule
bit for bit.  A larger rule is refused, and so is every rule of the four structs without the derive. -/
theorem C98_rkyv_roundtrip (R : AnyRule F64) :
    (archivable R = true → (archivedPairs R).length ≤ 2 ^ 27 →
      ∃ buf, R.archive = some buf ∧ buf.length = 16 * (archivedPairs R).length + 8 + 8 * archivedParams R ∧ (∀ b ∈ buf, b < 256) ∧
        ∀ pre, R.kind.unarchive (pre ++ buf) = some R) ∧
    (2 ^ 27 < (archivedPairs R).length → R.archive = none) ∧
    (archivable R = false → R.archive = none) := by
  refine ⟨fun hk hn => ?_, fun hn => ?_, fun hk => ?_⟩
  · cases R with
    | legendre r =>
      obtain ⟨buf, h1, h2, h3, h4⟩ := unarchive_archive r.nodeWeightPairs [] (by simp only [archivedPairs] at hn; omega)
      exact ⟨buf, h1, h2, h3, fun pre => by
        have h5 : unarchiveStruct 0 (pre ++ buf) = _ := h4 pre
        show (unarchiveStruct 0 (pre ++ buf)).map _ = _
        rw [h5]; rfl⟩
    | chebyshevFirst r =>
      obtain ⟨buf, h1, h2, h3, h4⟩ := unarchive_archive r.nodeWeightPairs [] (by simp only [archivedPairs] at hn; omega)
      exact ⟨buf, h1, h2, h3, fun pre => by
        have h5 : unarchiveStruct 0 (pre ++ buf) = _ := h4 pre
        show (unarchiveStruct 0 (pre ++ buf)).map _ = _
        rw [h5]; rfl⟩
    | hermite r =>
      obtain ⟨buf, h1, h2, h3, h4⟩ := unarchive_archive r.nodeWeightPairs [] (by simp only [archivedPairs] at hn; omega)
      exact ⟨buf, h1, h2, h3, fun pre => by
        have h5 : unarchiveStruct 0 (pre ++ buf) = _ := h4 pre
        show (unarchiveStruct 0 (pre ++ buf)).map _ = _
        rw [h5]; rfl⟩
    | laguerre r =>
      obtain ⟨buf, h1, h2, h3, h4⟩ := unarchive_archive r.nodeWeightPairs [r.alpha.val] (by simp only [archivedPairs] at hn; omega)
      exact ⟨buf, h1, h2, h3, fun pre => by
        have h5 : unarchiveStruct 1 (pre ++ buf) = _ := h4 pre
        show (unarchiveStruct 1 (pre ++ buf) >>= _) = _
        rw [h5]; rfl⟩
    | jacobi r =>
      obtain ⟨buf, h1, h2, h3, h4⟩ := unarchive_archive r.nodeWeightPairs [r.alpha.val, r.beta.val] (by simp only [archivedPairs] at hn; omega)
      exact ⟨buf, h1, h2, h3, fun pre => by
        have h5 : unarchiveStruct 2 (pre ++ buf) = _ := h4 pre
        show (unarchiveStruct 2 (pre ++ buf) >>= _) = _
        rw [h5]; rfl⟩
    | midpoint r => exact absurd hk (by simp [archivable])
    | trapezoid r => exact absurd hk (by simp [archivable])
    | simpson r => exact absurd hk (by simp [archivable])
    | chebyshevSecond r => exact absurd hk (by simp [archivable])
  · cases R with
    | legendre r => exact archive_too_large _ _ (by simp only [archivedPairs] at hn; omega)
    | chebyshevFirst r => exact archive_too_large _ _ (by simp only [archivedPairs] at hn; omega)
    | hermite r => exact archive_too_large _ _ (by simp only [archivedPairs] at hn; omega)
    | laguerre r => exact archive_too_large _ _ (by simp only [archivedPairs] at hn; omega)
    | jacobi r => exact archive_too_large _ _ (by simp only [archivedPairs] at hn; omega)
    | midpoint r => rfl
    | trapezoid r => rfl
    | simpson r => rfl
    | chebyshevSecond r => rfl
  · cases R <;> first | rfl | exact absurd hk (by simp [archivable])

/-- one node of Gauss-Laguerre with alpha = 1/2 takes 32 bytes; and 2^27 + 1 nodes are too many -/
example : (AnyRule.laguerre ⟨⟨[(F64.ofBits 0x3FF8000000000000, F64.ofBits 0x3FEC5BF891B4EF6A)]⟩, ⟨F64.ofBits 0x3FE0000000000000⟩⟩).archive =
      some [0, 0, 0, 0, 0, 0, 0xF8, 0x3F, 0x6A, 0xEF, 0xB4, 0x91, 0xF8, 0x5B, 0xEC, 0x3F,
        0xF0, 0xFF, 0xFF, 0xFF, 1, 0, 0, 0, 0, 0, 0, 0, 0, 0, 0xE0, 0x3F] ∧
    ∀ n, n = 2 ^ 27 + 1 → (AnyRule.hermite ⟨List.replicate n (F64.zero false, F64.zero false)⟩).archive = none := by
  refine ⟨by decide +kernel, fun n hn => (C98_rkyv_roundtrip _).2.1 ?_⟩
  simp only [archivedPairs, List.length_replicate]
  omega

omit L in
/-- C98, nothing is checked on the way in: for every list of pairs of at most 2^27 entries and every two floats there
are bytes that are read as a Gauss-Jacobi rule with these pairs and parameters, and likewise for Gauss-Laguerre. -/
theorem C98_rkyv_unchecked (pairs : List (F64 × F64)) (h : pairs.length ≤ 2 ^ 27) (a b : F64) :
    (∃ buf, Kind.jacobi.unarchive buf = some (.jacobi ⟨⟨pairs⟩, ⟨a⟩, ⟨b⟩⟩)) ∧
    (∃ buf, Kind.laguerre.unarchive buf = some (.laguerre ⟨⟨pairs⟩, ⟨a⟩⟩)) := by
  obtain ⟨buf, -, -, -, h1⟩ := (C98_rkyv_roundtrip (.jacobi ⟨⟨pairs⟩, ⟨a⟩, ⟨b⟩⟩)).1 rfl h
  obtain ⟨buf', -, -, -, h2⟩ := (C98_rkyv_roundtrip (.laguerre ⟨⟨pairs⟩, ⟨a⟩⟩)).1 rfl h
  exact ⟨⟨buf, h1 []⟩, ⟨buf', h2 []⟩⟩

/-- the number written by `len` bytes from position `pos` on, least significant byte first -/
def numberAt (buf : List Nat) (pos len : Nat) : Nat := Nat.ofDigits 256 ((buf.drop pos).take len)

/-- the bits of a float: the sign is bit 63 -/
def pattern64 (x : F64) : Nat := x.mag + (if x.sign then 2 ^ 63 else 0)

/-- the parameters of a rule, in the order of declaration -/
def parameterList : AnyRule F64 → List F64
  | .laguerre r => [r.alpha.get]
  | .jacobi r => [r.alpha.get, r.beta.get]
  | _ => []

omit L in
theorem ofLe_ofDigits : ∀ bs : List Nat, Nat.ofDigits 256 bs = ofLe bs
  | [] => rfl
  | b :: bs => by rw [Nat.ofDigits_cons, ofLe_ofDigits bs]; rfl

omit L in
theorem numberAt_append (pre mid post : List Nat) {pos len : Nat} (h1 : pre.length = pos) (h2 : mid.length = len) :
    numberAt (pre ++ (mid ++ post)) pos len = ofLe mid := by
  rw [numberAt, List.drop_left' h1, List.take_left' h2, ofLe_ofDigits]

omit L in
theorem ofLe_toLe (x : F64) : ofLe x.toLe = pattern64 x := by
  rw [F64.toLe, ofLe_leBytes, Nat.mod_eq_of_lt (lt_of_lt_of_eq (toBits_lt x) (by norm_num)), F64.toBits, pattern64, Nat.add_comm]

omit L in
theorem struct_layout (pairs : List (F64 × F64)) (params : List F64) (h : 16 * pairs.length ≤ 2 ^ 31) {buf : List Nat} (hb : archiveStruct pairs params = some buf) :
    (∀ (i : Nat) (hi : i < pairs.length), numberAt buf (16 * i) 8 = pattern64 pairs[i].1 ∧ numberAt buf (16 * i + 8) 8 = pattern64 pairs[i].2) ∧
    (numberAt buf (16 * pairs.length) 4 + 16 * pairs.length) % 2 ^ 32 = 0 ∧ numberAt buf (16 * pairs.length + 4) 4 = pairs.length ∧
    ∀ (j : Nat) (hj : j < params.length), numberAt buf (16 * pairs.length + 8 + 8 * j) 8 = pattern64 params[j] := by
  have hl := archiveBody_length pairs
  unfold archiveStruct at hb
  simp only at hb
  rw [if_pos (by omega)] at hb
  have hb := (Option.some.inj hb).symm
  refine ⟨fun i hi => ?_, ?_, ?_, fun j hj => ?_⟩
  · have e : pairs = pairs.take i ++ (pairs[i] :: pairs.drop (i + 1)) := by rw [← List.drop_eq_getElem_cons hi, List.take_append_drop]
    have hl1 : ((pairs.take i).flatMap archivePair).length = 16 * i := by rw [archiveBody_length, List.length_take, Nat.min_eq_left hi.le]
    have e2 : buf = (pairs.take i).flatMap archivePair ++ (pairs[i].1.toLe ++ (pairs[i].2.toLe ++ ((pairs.drop (i + 1)).flatMap archivePair ++
        archiveRoot (pairs.flatMap archivePair).length pairs.length params))) := by
      rw [hb]
      conv_lhs => enter [1]; rw [e]
      simp only [List.flatMap_append, List.flatMap_cons, archivePair, List.append_assoc]
    constructor
    · rw [e2, numberAt_append _ _ _ hl1 (toLe_length _), ofLe_toLe]
    · rw [e2, ← List.append_assoc, numberAt_append _ _ _ (by rw [List.length_append, hl1, toLe_length]) (toLe_length _), ofLe_toLe]
  · rw [hb, archiveRoot, numberAt_append _ _ _ hl (leBytes_length 4 _), ofLe_leBytes, hl]
    norm_num
    omega
  · rw [hb, archiveRoot, ← List.append_assoc, numberAt_append _ _ _ (by rw [List.length_append, hl, leBytes_length]) (leBytes_length 4 _), ofLe_leBytes]
    exact Nat.mod_eq_of_lt (by norm_num; omega)
  · have e : params = params.take j ++ (params[j] :: params.drop (j + 1)) := by rw [← List.drop_eq_getElem_cons hj, List.take_append_drop]
    have hl1 : ((params.take j).flatMap F64.toLe).length = 8 * j := by rw [archiveParams_length, List.length_take, Nat.min_eq_left hj.le]
    have e2 : buf = (pairs.flatMap archivePair ++ (leBytes 4 (2 ^ 32 - (pairs.flatMap archivePair).length) ++ (leBytes 4 pairs.length ++
        (params.take j).flatMap F64.toLe))) ++ (params[j].toLe ++ (params.drop (j + 1)).flatMap F64.toLe) := by
      rw [hb, archiveRoot]
      conv_lhs => enter [2, 2, 2]; rw [e]
      simp only [List.flatMap_append, List.flatMap_cons, List.append_assoc]
    rw [e2, numberAt_append _ _ _ (by simp only [List.length_append, hl, hl1, leBytes_length]; omega) (toLe_length _), ofLe_toLe]

omit L in
/-- C98, the layout of an archive: the pairs from the start, node before weight, 16 bytes each; then the distance back to the start as a negative 32-bit number, the number
of pairs in 32 bits, and the parameters, 8 bytes each. -/
theorem C98_layout (R : AnyRule F64) {buf : List Nat} (h : R.archive = some buf) :
    (∀ (i : Nat) (hi : i < (archivedPairs R).length), numberAt buf (16 * i) 8 = pattern64 (archivedPairs R)[i].1 ∧
      numberAt buf (16 * i + 8) 8 = pattern64 (archivedPairs R)[i].2) ∧
    (numberAt buf (16 * (archivedPairs R).length) 4 + 16 * (archivedPairs R).length) % 2 ^ 32 = 0 ∧
    numberAt buf (16 * (archivedPairs R).length + 4) 4 = (archivedPairs R).length ∧
    ∀ (j : Nat) (hj : j < (parameterList R).length), numberAt buf (16 * (archivedPairs R).length + 8 + 8 * j) 8 = pattern64 (parameterList R)[j] := by
  have hn : (archivedPairs R).length ≤ 2 ^ 27 := by
    by_contra hc
    rw [(C98_rkyv_roundtrip R).2.1 (by omega)] at h; cases h
  cases R with
  | legendre r => exact struct_layout r.nodeWeightPairs [] (by simp only [archivedPairs] at hn; omega) h
  | chebyshevFirst r => exact struct_layout r.nodeWeightPairs [] (by simp only [archivedPairs] at hn; omega) h
  | hermite r => exact struct_layout r.nodeWeightPairs [] (by simp only [archivedPairs] at hn; omega) h
  | laguerre r => exact struct_layout r.nodeWeightPairs [r.alpha.val] (by simp only [archivedPairs] at hn; omega) h
  | jacobi r => exact struct_layout r.nodeWeightPairs [r.alpha.val, r.beta.val] (by simp only [archivedPairs] at hn; omega) h
  | chebyshevSecond r => cases h
  | midpoint r => cases h
  | trapezoid r => cases h
  | simpson r => cases h

omit L in
/-- beta of a Gauss-Jacobi rule with one pair is in the last eight of the 40 bytes -/
example (x w α β : F64) : ∃ buf, (AnyRule.jacobi ⟨⟨[(x, w)]⟩, ⟨α⟩, ⟨β⟩⟩).archive = some buf ∧ buf.length = 40 ∧ numberAt buf 8 8 = pattern64 w ∧
    numberAt buf 20 4 = 1 ∧ numberAt buf 32 8 = pattern64 β := by
  obtain ⟨buf, h1, h2, -⟩ := (C98_rkyv_roundtrip (.jacobi ⟨⟨[(x, w)]⟩, ⟨α⟩, ⟨β⟩⟩)).1 rfl (by norm_num [archivedPairs])
  obtain ⟨a, -, b, c⟩ := C98_layout _ h1
  exact ⟨buf, h1, h2, (a 0 (by norm_num [archivedPairs])).2, b, c 1 (by norm_num [parameterList])⟩

/-- bytes that are read as a Gauss-Laguerre rule without nodes whose parameter is -2, which no constructor allows -/
example : ∃ r : LaguerreRule F64, Kind.laguerre.unarchive [0, 0, 0, 0, 0, 0, 0, 0, 0, 0, 0, 0, 0, 0, 0, 0xC0] = some (.laguerre r) ∧
    r.alpha.val.val = -2 ∧ FiniteAboveNegOne.new r.alpha.val = none := by
  have hv : (F64.ofBits 0xC000000000000000).val = -2 := by decide +kernel
  refine ⟨⟨⟨[]⟩, ⟨F64.ofBits 0xC000000000000000⟩⟩, by rfl, hv, new_invalid fun h => ?_⟩
  have := h.2
  change -1 < (F64.ofBits 0xC000000000000000).val at this
  rw [hv] at this
  norm_num at this

/-- a Gauss-Laguerre rule with parameter minus infinity comes out of some buffer -/
example : ∃ buf, Kind.laguerre.unarchive buf = some (.laguerre ⟨⟨[(F64.nan, F64.nan)]⟩, ⟨F64.inf true⟩⟩) :=
  (C98_rkyv_unchecked [(F64.nan, F64.nan)] (by norm_num) _ F64.nan).2

end GaussQuad.Props
