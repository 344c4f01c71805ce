import Verif.Model.Serde
import Verif.Props.JacobiNaN

/-!
# C86: serialisation of the rule structs
-/

namespace GaussQuad.Props
open Spec FloatOps
variable {F : Type} [FloatOps F]

/-- the floats stored in a rule -/
def storedFloats : AnyRule F → List F
  | .midpoint _ | .trapezoid _ | .simpson _ => []
  | .legendre r | .chebyshevFirst r | .chebyshevSecond r | .hermite r => r.nodeWeightPairs.flatMap fun p => [p.1, p.2]
  | .jacobi r => (r.nodeWeightPairs.flatMap fun p => [p.1, p.2]) ++ [r.alpha.val, r.beta.val]
  | .laguerre r => (r.nodeWeightPairs.flatMap fun p => [p.1, p.2]) ++ [r.alpha.val]

/-- a float survives the format -/
def Format.Keeps (fmt : Format) (x : F) : Prop := fmt.nullNonFinite = false ∨ isFinite x = true

theorem deFloat_serFloat (fmt : Format) (x : F) :
    (Format.Keeps fmt x → deFloat (serFloat fmt x) = some x) ∧ (¬ Format.Keeps fmt x → deFloat (serFloat fmt x) = none) := by
  unfold Format.Keeps serFloat
  constructor
  · intro h
    rw [if_neg (by rintro ⟨h1, h2⟩; rcases h with h | h <;> simp_all)]; rfl
  · intro h
    rw [if_pos (by simpa using h)]; rfl

theorem dePair_ser (fmt : Format) (p : F × F) :
    ((Format.Keeps fmt p.1 ∧ Format.Keeps fmt p.2) → dePair (.seq [serFloat fmt p.1, serFloat fmt p.2]) = some p) ∧
    (¬ (Format.Keeps fmt p.1 ∧ Format.Keeps fmt p.2) → dePair (.seq [serFloat fmt p.1, serFloat fmt p.2]) = none) := by
  constructor
  · rintro ⟨h1, h2⟩
    simp [dePair, (deFloat_serFloat fmt p.1).1 h1, (deFloat_serFloat fmt p.2).1 h2]
  · intro h
    by_cases h1 : Format.Keeps fmt p.1
    · have h2 : ¬ Format.Keeps fmt p.2 := fun h2 => h ⟨h1, h2⟩
      simp [dePair, (deFloat_serFloat fmt p.1).1 h1, (deFloat_serFloat fmt p.2).2 h2]
    · simp [dePair, (deFloat_serFloat fmt p.1).2 h1]

theorem dePairs_ser (fmt : Format) : ∀ l : List (F × F),
    ((∀ x ∈ l.flatMap fun p => [p.1, p.2], Format.Keeps fmt x) → dePairs (serPairs fmt l) = some l) ∧
    (¬ (∀ x ∈ l.flatMap fun p => [p.1, p.2], Format.Keeps fmt x) → dePairs (serPairs fmt l) = none)
  | [] => by simp [serPairs, dePairs]
  | p :: l => by
    obtain ⟨ih1, ih2⟩ := dePairs_ser fmt l
    simp only [serPairs, dePairs] at ih1 ih2
    have hiff : (∀ x ∈ (p :: l).flatMap fun p => [p.1, p.2], Format.Keeps fmt x) ↔
        (Format.Keeps fmt p.1 ∧ Format.Keeps fmt p.2) ∧ ∀ x ∈ l.flatMap fun p => [p.1, p.2], Format.Keeps fmt x := by
      simp only [List.flatMap_cons, List.mem_append, List.mem_cons, List.not_mem_nil, or_false]
      constructor
      · intro h; exact ⟨⟨h _ (.inl (.inl rfl)), h _ (.inl (.inr rfl))⟩, fun x hx => h x (.inr hx)⟩
      · rintro ⟨⟨h1, h2⟩, h3⟩ x ((rfl | rfl) | hx)
        exacts [h1, h2, h3 x hx]
    rw [hiff]
    simp only [serPairs, dePairs, List.map_cons, List.mapM_cons]
    constructor
    · rintro ⟨h1, h2⟩
      rw [(dePair_ser fmt p).1 h1, ih1 h2]; rfl
    · intro h
      by_cases h1 : Format.Keeps fmt p.1 ∧ Format.Keeps fmt p.2
      · rw [(dePair_ser fmt p).1 h1, ih2 fun h2 => h ⟨h1, h2⟩]; rfl
      · rw [(dePair_ser fmt p).2 h1]; rfl

theorem deStruct_serStruct (fmt : Format) (R : AnyRule F) :
    ∃ ws, deStruct R.kind.fields (R.serialize fmt) = some ws ∧ ∀ (k : Kind), k = R.kind →
      ((∀ x ∈ storedFloats R, Format.Keeps fmt x) → k.build ws = some R) ∧ (¬ (∀ x ∈ storedFloats R, Format.Keeps fmt x) → k.build ws = none) := by
  have hdeg : ∀ r : NodeRule, deDegree (F := F) (.uint r.degree) = some r := fun r => by simp [deDegree, r.pos, r.lt]
  have node : ∀ r : NodeRule, deStruct (F := F) ["degree"] (serStruct fmt [("degree", .uint r.degree)]) = some [.uint r.degree] := by
    intro r; unfold serStruct; split <;> simp [deStruct, getField]
  have one : ∀ w : Wire F, deStruct ["node_weight_pairs"] (serStruct fmt [("node_weight_pairs", w)]) = some [w] := by
    intro w; unfold serStruct; split <;> simp [deStruct, getField]
  have two : ∀ w a : Wire F, deStruct ["node_weight_pairs", "alpha"] (serStruct fmt [("node_weight_pairs", w), ("alpha", a)]) = some [w, a] := by
    intro w a; unfold serStruct; split <;> simp [deStruct, getField]
  have three : ∀ w a b : Wire F, deStruct ["node_weight_pairs", "alpha", "beta"] (serStruct fmt [("node_weight_pairs", w), ("alpha", a), ("beta", b)]) = some [w, a, b] := by
    intro w a b; unfold serStruct; split <;> simp [deStruct, getField]
  cases R with
  | midpoint r => exact ⟨_, node r, by rintro _ rfl; simp [Kind.build, AnyRule.kind, hdeg, storedFloats]⟩
  | trapezoid r => exact ⟨_, node r, by rintro _ rfl; simp [Kind.build, AnyRule.kind, hdeg, storedFloats]⟩
  | simpson r => exact ⟨_, node r, by rintro _ rfl; simp [Kind.build, AnyRule.kind, hdeg, storedFloats]⟩
  | legendre r =>
    refine ⟨_, one _, ?_⟩
    rintro _ rfl
    exact ⟨fun h => by simp [Kind.build, AnyRule.kind, (dePairs_ser fmt _).1 h], fun h => by simp [Kind.build, AnyRule.kind, (dePairs_ser fmt _).2 h]⟩
  | chebyshevFirst r =>
    refine ⟨_, one _, ?_⟩
    rintro _ rfl
    exact ⟨fun h => by simp [Kind.build, AnyRule.kind, (dePairs_ser fmt _).1 h], fun h => by simp [Kind.build, AnyRule.kind, (dePairs_ser fmt _).2 h]⟩
  | chebyshevSecond r =>
    refine ⟨_, one _, ?_⟩
    rintro _ rfl
    exact ⟨fun h => by simp [Kind.build, AnyRule.kind, (dePairs_ser fmt _).1 h], fun h => by simp [Kind.build, AnyRule.kind, (dePairs_ser fmt _).2 h]⟩
  | hermite r =>
    refine ⟨_, one _, ?_⟩
    rintro _ rfl
    exact ⟨fun h => by simp [Kind.build, AnyRule.kind, (dePairs_ser fmt _).1 h], fun h => by simp [Kind.build, AnyRule.kind, (dePairs_ser fmt _).2 h]⟩
  | laguerre r =>
    refine ⟨_, two _ _, ?_⟩
    rintro _ rfl
    simp only [storedFloats, List.mem_append, List.mem_singleton, or_imp, forall_and, forall_eq]
    constructor
    · rintro ⟨h1, h2⟩
      simp [Kind.build, AnyRule.kind, (dePairs_ser fmt _).1 h1, (deFloat_serFloat fmt _).1 h2, FiniteAboveNegOne.deserialize]
    · intro h
      by_cases h1 : ∀ x ∈ r.nodeWeightPairs.flatMap fun p => [p.1, p.2], Format.Keeps fmt x
      · simp [Kind.build, AnyRule.kind, (dePairs_ser fmt _).1 h1, (deFloat_serFloat fmt _).2 fun h2 => h ⟨h1, h2⟩]
      · simp [Kind.build, AnyRule.kind, (dePairs_ser fmt _).2 h1]
  | jacobi r =>
    refine ⟨_, three _ _ _, ?_⟩
    rintro _ rfl
    simp only [storedFloats, List.mem_append, List.mem_cons, List.not_mem_nil, or_false, or_imp, forall_and, forall_eq]
    constructor
    · rintro ⟨h1, h2, h3⟩
      simp [Kind.build, AnyRule.kind, (dePairs_ser fmt _).1 h1, (deFloat_serFloat fmt _).1 h2, (deFloat_serFloat fmt _).1 h3, FiniteAboveNegOne.deserialize]
    · intro h
      by_cases h1 : ∀ x ∈ r.nodeWeightPairs.flatMap fun p => [p.1, p.2], Format.Keeps fmt x
      · by_cases h2 : Format.Keeps fmt r.alpha.val
        · simp [Kind.build, AnyRule.kind, (dePairs_ser fmt _).1 h1, (deFloat_serFloat fmt _).1 h2, (deFloat_serFloat fmt _).2 fun h3 => h ⟨h1, h2, h3⟩]
        · simp [Kind.build, AnyRule.kind, (dePairs_ser fmt _).1 h1, (deFloat_serFloat fmt _).2 h2]
      · simp [Kind.build, AnyRule.kind, (dePairs_ser fmt _).2 h1]

/-- C86: a format that keeps all floats restores every rule, of any struct, bit by bit, whether fields are named or not. -/
theorem C86_round_trip (named : Bool) (R : AnyRule F) : R.kind.deserialize (R.serialize ⟨named, false⟩) = some R := by
  obtain ⟨ws, h1, h2⟩ := deStruct_serStruct ⟨named, false⟩ R
  rw [Kind.deserialize, h1]
  exact (h2 _ rfl).1 fun x _ => .inl rfl

/-- C86: a format like JSON that writes null for NaN and infinities restores exactly the rules whose numbers are all finite; the others are refused. -/
theorem C86_json (named : Bool) (R : AnyRule F) :
    ((∀ x ∈ storedFloats R, isFinite x = true) → R.kind.deserialize (R.serialize ⟨named, true⟩) = some R) ∧
    ((∃ x ∈ storedFloats R, isFinite x = false) → R.kind.deserialize (R.serialize ⟨named, true⟩) = none) := by
  obtain ⟨ws, h1, h2⟩ := deStruct_serStruct ⟨named, true⟩ R
  rw [Kind.deserialize, h1]
  refine ⟨fun h => (h2 _ rfl).1 fun x hx => .inr (h x hx), ?_⟩
  rintro ⟨x, hx, hf⟩
  refine (h2 _ rfl).2 fun h => ?_
  rcases h x hx with h | h
  · cases h
  · rw [hf] at h; cases h

/-- C86, with C35: the Gauss-Jacobi rules with alpha + beta = -1 cannot be restored from JSON. -/
theorem C86_json_jacobi_refused [L : Libm] (h : SinOfZero) (named : Bool) (mode : Overflow) (ext : Externals F64) (n : ℕ) (hn : 2 ≤ n)
    (α β : FiniteAboveNegOne F64) (hfin : (α.get +ᶠ β.get).isFinite = true) (hsum : (α.get +ᶠ β.get).val = -1)
    (hne : ¬ (feq α.get (lit (-0.5)) = true ∧ feq β.get (lit (-0.5)) = true)) :
    ∃ r, GaussJacobi.new mode ext n α β = some r ∧ Kind.jacobi.deserialize ((AnyRule.jacobi r).serialize ⟨named, true⟩) = none := by
  obtain ⟨r, h1, h2, h3⟩ := C35_nan_weights h mode ext n hn α β hfin hsum hne
  refine ⟨r, h1, (C86_json named (.jacobi r)).2 ?_⟩
  have hlen : r.nodeWeightPairs.length = n := h2
  obtain ⟨p, hp⟩ : ∃ p, p ∈ r.nodeWeightPairs := List.exists_mem_of_length_pos (by omega)
  refine ⟨p.2, ?_, ?_⟩
  · simp only [storedFloats, List.mem_append, List.mem_flatMap]
    exact .inl ⟨p, hp, by simp⟩
  · have := h3 p hp
    rw [show isFinite p.2 = F64.isFinite p.2 from rfl]
    unfold F64.isNaN at this
    simp_all [F64.isFinite]
    omega

theorem getField_perm {l l' : List (String × Wire F)} (h : l.Perm l') (name : String) : getField l name = getField l' name := by
  have hp := h.filter (fun e => e.1 == name)
  unfold getField
  generalize l.filter (fun e => e.1 == name) = A at hp
  generalize l'.filter (fun e => e.1 == name) = B at hp
  match A, B, hp with
  | [], B, hp => rw [hp.symm.eq_nil]
  | [a], B, hp => rw [List.perm_singleton.1 hp.symm]
  | a :: b :: A, B, hp =>
    match B, hp.length_eq with
    | [], h => simp at h
    | [_], h => simp at h
    | _ :: _ :: _, _ => rfl

theorem getField_append {l extra : List (String × Wire F)} {name : String} (h : ∀ e ∈ extra, e.1 ≠ name) : getField (l ++ extra) name = getField l name := by
  unfold getField
  rw [List.filter_append, show extra.filter (fun e => e.1 == name) = [] from List.filter_eq_nil_iff.2 fun e he => by simpa using h e he, List.append_nil]

/-- C86: order of the fields and unknown extra fields do not matter. -/
theorem C86_field_order (k : Kind) {l l' extra : List (String × Wire F)} (hp : l'.Perm (l ++ extra)) (hx : ∀ e ∈ extra, e.1 ∉ k.fields) :
    k.deserialize (.map l') = k.deserialize (.map l) := by
  unfold Kind.deserialize
  congr 1
  simp only [deStruct]
  have : ∀ names : List String, (∀ e ∈ extra, e.1 ∉ names) → names.mapM (getField l') = names.mapM (getField l) := by
    intro names
    induction names with
    | nil => intro _; rfl
    | cons a names ih =>
      intro h
      rw [List.mapM_cons, List.mapM_cons, getField_perm hp, getField_append fun e he hea => h e he (by simp [hea]), ih fun e he hm => h e he (by simp [hm])]
  exact this _ hx

/-- C86: a missing or a repeated field is refused. -/
theorem C86_missing_or_repeated (k : Kind) (l : List (String × Wire F)) (name : String) (hn : name ∈ k.fields) (hc : (l.filter (fun e => e.1 == name)).length ≠ 1) :
    k.deserialize (.map l) = none := by
  have hg : getField l name = none := by
    unfold getField
    generalize l.filter (fun e => e.1 == name) = A at hc
    match A, hc with
    | [], _ => rfl
    | [e], hc => simp at hc
    | _ :: _ :: _, _ => rfl
  have : ∀ names : List String, name ∈ names → names.mapM (getField l) = none := by
    intro names
    induction names with
    | nil => intro h; cases h
    | cons a names ih =>
      intro h
      rw [List.mapM_cons]
      rcases List.mem_cons.1 h with rfl | h
      · rw [hg]; rfl
      · cases getField l a with
        | none => rfl
        | some w => rw [ih h]; rfl
  simp only [Kind.deserialize, deStruct, this _ hn]
  rfl

/-- C86: the degree of a Newton-Cotes rule is checked: zero and anything beyond 32 bits are refused. -/
theorem C86_degree (n : ℕ) (k : Kind) (hk : k = .midpoint ∨ k = .trapezoid ∨ k = .simpson) :
    (∃ R : AnyRule F, k.deserialize (.map [("degree", .uint n)]) = some R) ↔ 0 < n ∧ n < 2 ^ 32 := by
  rcases hk with rfl | rfl | rfl <;>
  simp [Kind.deserialize, Kind.fields, deStruct, getField, Kind.build, deDegree]

/-- C86: nothing else is checked: every list of pairs, even an empty or unsorted one or one with negative weights, is accepted as a rule. -/
theorem C86_unchecked (L : List (F × F)) :
    Kind.legendre.deserialize (.map [("node_weight_pairs", .seq (L.map fun p => .seq [.float p.1, .float p.2]))]) = some (.legendre ⟨L⟩) ∧
    Kind.hermite.deserialize (.map [("node_weight_pairs", .seq (L.map fun p => .seq [.float p.1, .float p.2]))]) = some (.hermite ⟨L⟩) ∧
    ∀ α β : F, Kind.jacobi.deserialize (.map [("node_weight_pairs", .seq (L.map fun p => .seq [.float p.1, .float p.2])), ("alpha", .float α), ("beta", .float β)]) =
      some (.jacobi ⟨⟨L⟩, ⟨α⟩, ⟨β⟩⟩) :=
  ⟨C86_round_trip true (.legendre ⟨L⟩), C86_round_trip true (.hermite ⟨L⟩), fun α β => C86_round_trip true (.jacobi ⟨⟨L⟩, ⟨α⟩, ⟨β⟩⟩)⟩

/-- C86: a format with names gets a map with the declared field names in order, one without gets the same values as a sequence. -/
theorem C86_shape (R : AnyRule F) (null : Bool) : ∃ ws : List (Wire F), ws.length = R.kind.fields.length ∧
    R.serialize ⟨true, null⟩ = .map (R.kind.fields.zip ws) ∧ R.serialize ⟨false, null⟩ = .seq ws := by
  cases R <;> exact ⟨_, rfl, rfl, rfl⟩

/-- C86: the written form in a format that keeps all floats, name by name. -/
theorem C86_written (L : List (F × F)) (α β : F) (d : NodeRule) :
    let pairs : Wire F := .seq (L.map fun p => .seq [.float p.1, .float p.2])
    (AnyRule.midpoint d).serialize ⟨true, false⟩ = (.map [("degree", .uint d.degree)] : Wire F) ∧
    (AnyRule.trapezoid d).serialize ⟨true, false⟩ = (.map [("degree", .uint d.degree)] : Wire F) ∧
    (AnyRule.simpson d).serialize ⟨true, false⟩ = (.map [("degree", .uint d.degree)] : Wire F) ∧
    (AnyRule.legendre ⟨L⟩).serialize ⟨true, false⟩ = .map [("node_weight_pairs", pairs)] ∧
    (AnyRule.chebyshevFirst ⟨L⟩).serialize ⟨true, false⟩ = .map [("node_weight_pairs", pairs)] ∧
    (AnyRule.chebyshevSecond ⟨L⟩).serialize ⟨true, false⟩ = .map [("node_weight_pairs", pairs)] ∧
    (AnyRule.hermite ⟨L⟩).serialize ⟨true, false⟩ = .map [("node_weight_pairs", pairs)] ∧
    (AnyRule.laguerre ⟨⟨L⟩, ⟨α⟩⟩).serialize ⟨true, false⟩ = .map [("node_weight_pairs", pairs), ("alpha", .float α)] ∧
    (AnyRule.jacobi ⟨⟨L⟩, ⟨α⟩, ⟨β⟩⟩).serialize ⟨true, false⟩ = .map [("node_weight_pairs", pairs), ("alpha", .float α), ("beta", .float β)] ∧
    (AnyRule.jacobi ⟨⟨L⟩, ⟨α⟩, ⟨β⟩⟩).serialize ⟨false, false⟩ = .seq [pairs, .float α, .float β] := by
  simp [AnyRule.serialize, serStruct, serPairs, serFloat]

/-- a Gauss-Jacobi rule with two different parameters -/
example (p : F × F) (α β : F) : (AnyRule.jacobi ⟨⟨[p]⟩, ⟨α⟩, ⟨β⟩⟩).serialize ⟨true, false⟩ =
    .map [("node_weight_pairs", .seq [.seq [.float p.1, .float p.2]]), ("alpha", .float α), ("beta", .float β)] :=
  (C86_written [p] α β ⟨1, by decide, by decide⟩).2.2.2.2.2.2.2.2.1

/-- C86: integers are accepted where floats are expected, and converted. -/
theorem C86_integers (L : List (ℕ × ℕ)) (a : ℕ) :
    Kind.laguerre.deserialize (.map [("node_weight_pairs", .seq (L.map fun p => .seq [.uint p.1, .uint p.2])), ("alpha", .uint a)]) =
      some (.laguerre ⟨⟨L.map fun p => ((ofNat p.1 : F), ofNat p.2)⟩, ⟨ofNat a⟩⟩) := by
  have h : dePairs (F := F) (.seq (L.map fun p => .seq [.uint p.1, .uint p.2])) = some (L.map fun p => ((ofNat p.1 : F), ofNat p.2)) := by
    unfold dePairs
    simp only
    induction L with
    | nil => rfl
    | cons p L ih => rw [List.map_cons, List.mapM_cons, ih]; rfl
  simp [Kind.deserialize, Kind.fields, deStruct, getField, Kind.build, h, deFloat, FiniteAboveNegOne.deserialize]

/-- C86: a rule with an entry that is not a sequence of exactly two items is refused. -/
theorem C86_wrong_pair (k : Kind) (hk : k = .legendre ∨ k = .chebyshevFirst ∨ k = .chebyshevSecond ∨ k = .hermite) (l : List (Wire F)) (items : List (Wire F))
    (hm : .seq items ∈ l) (hlen : items.length ≠ 2) : k.deserialize (.map [("node_weight_pairs", .seq l)]) = none := by
  have hp : dePair (F := F) (.seq items) = none := by
    match items, hlen with
    | [], _ => rfl
    | [_], _ => rfl
    | [_, _], h => exact absurd rfl h
    | _ :: _ :: _ :: _, _ => rfl
  have h : dePairs (F := F) (.seq l) = none := by
    unfold dePairs
    simp only
    induction l with
    | nil => simp at hm
    | cons x l ih =>
      rw [List.mapM_cons]
      rcases List.mem_cons.1 hm with rfl | hm
      · rw [hp]; rfl
      · rw [ih hm]
        cases dePair x <;> rfl
  rcases hk with rfl | rfl | rfl | rfl <;> simp [Kind.deserialize, Kind.fields, deStruct, getField, Kind.build, h]

example (x : F) : Kind.legendre.deserialize (.map [("node_weight_pairs", .seq [.seq [.float x, .float x], .seq [.float x, .float x, .float x]])]) = none :=
  C86_wrong_pair .legendre (.inl rfl) _ [.float x, .float x, .float x] (by simp) (by simp)

/-- fields of a Laguerre rule in the other order with an unknown one between them -/
example (w : F) : Kind.laguerre.deserialize (.map [("alpha", .float w), ("version", .uint 2), ("node_weight_pairs", .seq [.seq [.float w, .uint 1]])]) =
    some (.laguerre ⟨⟨[(w, ofNat 1)]⟩, ⟨w⟩⟩) := by
  rw [C86_field_order .laguerre (l := [("node_weight_pairs", .seq [.seq [.float w, .uint 1]]), ("alpha", .float w)]) (extra := [("version", .uint 2)])
    (by
      refine (List.Perm.swap _ _ _).trans (.trans (.cons _ (List.Perm.swap _ _ _)) ?_)
      exact (List.Perm.swap _ _ _).trans (.cons _ (List.Perm.swap _ _ _)))
    (by simp [Kind.fields])]
  simp [Kind.deserialize, Kind.fields, deStruct, getField, Kind.build, dePairs, dePair, deFloat, FiniteAboveNegOne.deserialize]

example : ¬ ∃ R : AnyRule F, Kind.simpson.deserialize (.map [("degree", .uint 0)]) = some R := by
  rw [C86_degree 0 .simpson (.inr (.inr rfl))]; omega

/-- alpha = -1/4, beta = -3/4 meet the hypotheses of `C86_json_jacobi_refused` -/
example [L : Libm] (h0 : SinOfZero) (ext : Externals F64) (n : ℕ) (hn : 2 ≤ n) : ∃ r, GaussJacobi.new .checked ext n ⟨lit (-0.25)⟩ ⟨lit (-0.75)⟩ = some r ∧
    Kind.jacobi.deserialize ((AnyRule.jacobi r).serialize ⟨true, true⟩) = none := by
  have hs : F64.add (F64.round (-0.25) false) (F64.round (-0.75) false) = F64.round (-1) false := by decide +kernel
  have hsum : ((⟨lit (-0.25)⟩ : FiniteAboveNegOne F64).get +ᶠ (⟨lit (-0.75)⟩ : FiniteAboveNegOne F64).get : F64) = F64.round (-1) false := hs
  exact C86_json_jacobi_refused h0 true .checked ext n hn ⟨lit (-0.25)⟩ ⟨lit (-0.75)⟩
    (by rw [hsum]; exact F64.val_negOne.2) (by rw [hsum]; exact F64.val_negOne.1) (by
      rintro ⟨h1, -⟩
      change F64.eqb (F64.round (-0.25) false) (F64.round (-0.5) false) = true at h1
      revert h1
      decide +kernel)

/-- the number of cells given twice -/
example [FloatOps F64] : Kind.midpoint.deserialize (F := F64) (.map [("degree", .uint 3), ("degree", .uint 3)]) = none :=
  C86_missing_or_repeated .midpoint _ "degree" (by decide) (by decide)

end GaussQuad.Props
