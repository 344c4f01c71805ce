import Verif.Model.Derives
import Verif.Props.FloatRobust
import Verif.Props.JacobiNaN
import Verif.Props.LegendreF64
import Verif.Props.DataAccess

/-!
# C80: equality of rules

`==` on the rule structs is derived, so it is IEEE equality field by field.
-/

set_option exponentiation.threshold 3000

namespace GaussQuad.Props
open Spec F64 FloatOps

section
variable [L : Libm]

/-- the numbers a rule stores: nodes, weights and parameters -/
def stored : AnyRule F64 → List F64
  | .midpoint _ => []
  | .trapezoid _ => []
  | .simpson _ => []
  | .legendre r => r.nodeWeightPairs.flatMap fun p => [p.1, p.2]
  | .chebyshevFirst r => r.nodeWeightPairs.flatMap fun p => [p.1, p.2]
  | .chebyshevSecond r => r.nodeWeightPairs.flatMap fun p => [p.1, p.2]
  | .jacobi r => (r.nodeWeightPairs.flatMap fun p => [p.1, p.2]) ++ [r.alpha.get, r.beta.get]
  | .hermite r => r.nodeWeightPairs.flatMap fun p => [p.1, p.2]
  | .laguerre r => (r.nodeWeightPairs.flatMap fun p => [p.1, p.2]) ++ [r.alpha.get]

/-- the same struct -/
def kind : AnyRule F64 → ℕ
  | .midpoint _ => 0
  | .trapezoid _ => 1
  | .simpson _ => 2
  | .legendre _ => 3
  | .chebyshevFirst _ => 4
  | .chebyshevSecond _ => 5
  | .jacobi _ => 6
  | .hermite _ => 7
  | .laguerre _ => 8

/-- `degree()` of the struct -/
def anyDegree : AnyRule F64 → ℕ
  | .midpoint r => r.degree
  | .trapezoid r => r.degree
  | .simpson r => r.degree
  | .legendre r => r.degree
  | .chebyshevFirst r => r.degree
  | .chebyshevSecond r => r.degree
  | .jacobi r => r.degree
  | .hermite r => r.degree
  | .laguerre r => r.degree

/-- IEEE equality of the numbers -/
def NumEq (x y : F64) : Prop := x.isNaN = false ∧ y.isNaN = false ∧ x.val = y.val ∧ x.isInf = y.isInf

theorem feq_iff {x y : F64} : feq x y = true ↔ NumEq x y := by
  show eqb x y = true ↔ _
  unfold eqb NumEq
  rw [Bool.and_eq_true, Bool.and_eq_true, Bool.not_eq_true', Bool.not_eq_true', decide_eq_true_eq, key_eq_iff]
  constructor
  · rintro ⟨⟨h1, h2⟩, h3⟩
    refine ⟨h1, h2, h3, ?_⟩
    have hk := (key_eq_iff x y).2 h3
    have hm : x.mag = y.mag := by unfold key at hk; split at hk <;> split at hk <;> omega
    exact ((isInf_congr hm).1)
  · rintro ⟨h1, h2, h3, -⟩; exact ⟨⟨h1, h2⟩, h3⟩

theorem pairsEq_iff {l l' : List (F64 × F64)} : pairsEq l l' = true ↔
    List.Forall₂ NumEq (l.flatMap fun p => [p.1, p.2]) (l'.flatMap fun p => [p.1, p.2]) := by
  induction l generalizing l' with
  | nil => cases l' <;> simp [pairsEq]
  | cons p ps ih =>
    cases l' with
    | nil => simp [pairsEq]
    | cons q qs =>
      simp only [pairsEq, Bool.and_eq_true, feq_iff, ih, List.flatMap_cons, List.cons_append, List.nil_append, List.forall₂_cons]
      tauto

theorem forall₂_append_iff {α : Type} {R : α → α → Prop} {a b c d : List α} (h : c.length = d.length) :
    List.Forall₂ R (a ++ c) (b ++ d) ↔ List.Forall₂ R a b ∧ List.Forall₂ R c d := by
  constructor
  · intro H
    have hl : a.length = b.length := by have := H.length_eq; simp at this; omega
    have h1 := List.forall₂_take a.length H
    have h2 := List.forall₂_drop a.length H
    rw [List.take_left', hl, List.take_left'] at h1
    rw [List.drop_left', hl, List.drop_left'] at h2
    · exact ⟨h1, h2⟩
    all_goals first | rfl | exact hl
  · rintro ⟨h1, h2⟩; exact List.rel_append h1 h2

/-- C80: two rules of the same struct are equal exactly if they have the same degree and all stored numbers are IEEE equal in
order, and none is NaN. -/
theorem C80_equality (R R' : AnyRule F64) :
    R.eq R' = true ↔ kind R = kind R' ∧ anyDegree R = anyDegree R' ∧ List.Forall₂ NumEq (stored R) (stored R') := by
  have flen : ∀ l l' : List (F64 × F64), List.Forall₂ NumEq (l.flatMap fun p => [p.1, p.2]) (l'.flatMap fun p => [p.1, p.2]) →
      l.length = l'.length := by
    intro l l' h; exact by
      have := h.length_eq
      simp [List.length_flatMap] at this
      exact this
  cases R <;> cases R' <;> simp only [AnyRule.eq, kind, anyDegree, stored, Rule.eq, LaguerreRule.eq, JacobiRule.eq, NodeRule.eq,
    FiniteAboveNegOne.eq, Bool.and_eq_true, pairsEq_iff, feq_iff, Rule.degree, beq_iff_eq, true_and, List.forall₂_nil_left_iff, and_true,
    Bool.false_eq_true, false_iff, false_and, not_false_eq_true] <;>
    first
    | exact ⟨fun h => ⟨flen _ _ h, h⟩, fun h => h.2⟩
    | (rw [forall₂_append_iff (by simp)]
       simp only [List.forall₂_cons, List.forall₂_nil_left_iff, and_true]
       exact ⟨fun h => ⟨flen _ _ h.1, h⟩, fun h => h.2⟩)
    | (intro h; exact absurd h.1 (by decide))
    | skip

/-- a rule that stores no NaN -/
def NoNaN (R : AnyRule F64) : Prop := ∀ x ∈ stored R, x.isNaN = false

omit L in
theorem NumEq.self_iff {x : F64} : NumEq x x ↔ x.isNaN = false := by unfold NumEq; tauto

omit L in
theorem NumEq.symm {x y : F64} (h : NumEq x y) : NumEq y x := ⟨h.2.1, h.1, h.2.2.1.symm, h.2.2.2.symm⟩

omit L in
theorem NumEq.trans {x y z : F64} (h : NumEq x y) (h' : NumEq y z) : NumEq x z :=
  ⟨h.1, h'.2.1, h.2.2.1.trans h'.2.2.1, h.2.2.2.trans h'.2.2.2⟩

/-- C80: `==` is symmetric and transitive; a rule equals its clone exactly if it stores no NaN; a rule that stores a NaN equals
nothing. -/
theorem C80_equivalence (R : AnyRule F64) : (R.eq R.clone = true ↔ NoNaN R) ∧ (∀ R', R.eq R' = R'.eq R) ∧
    (∀ R' R'', R.eq R' = true → R'.eq R'' = true → R.eq R'' = true) ∧ (¬ NoNaN R → ∀ R', R.eq R' = false ∧ R'.eq R = false) := by
  have hsymm : ∀ R R' : AnyRule F64, R.eq R' = true → R'.eq R = true := by
    intro R R' h
    rw [C80_equality] at h ⊢
    exact ⟨h.1.symm, h.2.1.symm, (h.2.2.flip).imp fun _ _ h => NumEq.symm h⟩
  have hself : ∀ R : AnyRule F64, R.eq R = true ↔ NoNaN R := by
    intro R
    rw [C80_equality, List.forall₂_same]
    simp only [true_and, NumEq.self_iff, NoNaN]
  have htrans : ∀ R R' R'' : AnyRule F64, R.eq R' = true → R'.eq R'' = true → R.eq R'' = true := by
    intro R R' R'' h1 h2
    rw [C80_equality] at h1 h2 ⊢
    refine ⟨h1.1.trans h2.1, h1.2.1.trans h2.2.1, ?_⟩
    obtain ⟨l1, g1⟩ := List.forall₂_iff_get.1 h1.2.2
    obtain ⟨l2, g2⟩ := List.forall₂_iff_get.1 h2.2.2
    exact List.forall₂_iff_get.2 ⟨l1.trans l2, fun i hi hi' => (g1 i hi (by omega)).trans (g2 i (by omega) hi')⟩
  refine ⟨hself R, fun R' => ?_, htrans R, fun h R' => ?_⟩
  · rw [Bool.eq_iff_iff]; exact ⟨hsymm R R', hsymm R' R⟩
  · constructor
    · by_contra hc; rw [Bool.not_eq_false] at hc
      exact h ((hself R).1 (htrans _ _ _ hc (hsymm _ _ hc)))
    · by_contra hc; rw [Bool.not_eq_false] at hc
      exact h ((hself R).1 (htrans _ _ _ (hsymm _ _ hc) hc))

omit L in
theorem mem_stored_pairs {l : List (F64 × F64)} {x : F64} : x ∈ (l.flatMap fun p => [p.1, p.2]) ↔ ∃ p ∈ l, x = p.1 ∨ x = p.2 := by
  simp [List.mem_flatMap]

/-- C80: the Newton-Cotes rules are equal exactly if their degrees are. -/
theorem C80_newton_cotes (q q' : NodeRule) :
    ((AnyRule.midpoint q : AnyRule F64).eq (.midpoint q') = true ↔ q.degree = q'.degree) ∧
    ((AnyRule.trapezoid q : AnyRule F64).eq (.trapezoid q') = true ↔ q.degree = q'.degree) ∧
    ((AnyRule.simpson q : AnyRule F64).eq (.simpson q') = true ↔ q.degree = q'.degree) := by
  simp [AnyRule.eq, NodeRule.eq]

/-- C80: with an accurate backend `GaussLegendre::new(n) == GaussLegendre::new(m)` exactly if `n = m`, and likewise for the two
Chebyshev rules; in particular these rules equal their clones. -/
theorem C80_legendre_chebyshev (hL : AccurateTrig L) (hS : AccurateSin L) (mode : Overflow) {n m : ℕ} (hn : 0 < n) (hm : 0 < m) :
    (n + 1 < 2 ^ 64 → m + 1 < 2 ^ 64 → ∀ r r' : Rule F64, GaussLegendre.new mode n = some r → GaussLegendre.new mode m = some r' →
      ((AnyRule.legendre r).eq (.legendre r') = true ↔ n = m)) ∧
    (n < 2 ^ 52 → m < 2 ^ 52 → ∀ r r' : Rule F64, GaussChebyshevFirstKind.new mode n = some r →
      GaussChebyshevFirstKind.new mode m = some r' → ((AnyRule.chebyshevFirst r).eq (.chebyshevFirst r') = true ↔ n = m)) ∧
    (n < 2 ^ 52 → m < 2 ^ 52 → ∀ r r' : Rule F64, GaussChebyshevSecondKind.new mode n = some r →
      GaussChebyshevSecondKind.new mode m = some r' → ((AnyRule.chebyshevSecond r).eq (.chebyshevSecond r') = true ↔ n = m)) := by
  have fin : ∀ {r : Rule F64} {k : ℕ}, r.asNodeWeightPairs.length = k →
      (∀ p ∈ r.asNodeWeightPairs, p.1.isFinite = true ∧ p.2.isFinite = true) → r.degree = k ∧
      ∀ x ∈ (r.nodeWeightPairs.flatMap fun p => [p.1, p.2]), x.isNaN = false := by
    intro r k hl h
    refine ⟨hl, fun x hx => ?_⟩
    obtain ⟨p, hp, rfl | rfl⟩ := mem_stored_pairs.1 hx
    exacts [isNaN_of_finite (h p hp).1, isNaN_of_finite (h p hp).2]
  have leg : ∀ {k : ℕ} {r : Rule F64}, 0 < k → k + 1 < 2 ^ 64 → GaussLegendre.new mode k = some r → r.degree = k ∧
      ∀ x ∈ (r.nodeWeightPairs.flatMap fun p => [p.1, p.2]), x.isNaN = false := by
    intro k r hk hlt h
    obtain ⟨r', h', G, hG, -, -, -, hf⟩ := C52_binary64 hL mode hk hlt
    rw [h, Option.some_inj] at h'; subst h'
    refine fin (hf.length_eq.trans hG) fun p hp => ?_
    obtain ⟨i, hi, rfl⟩ := List.getElem_of_mem hp
    have := (List.forall₂_iff_get.1 hf).2 i hi (by rw [← hf.length_eq]; exact hi)
    exact ⟨this.1, this.2.1⟩
  have c1 : ∀ {k : ℕ} {r : Rule F64}, 0 < k → k < 2 ^ 52 → GaussChebyshevFirstKind.new mode k = some r → r.degree = k ∧
      ∀ x ∈ (r.nodeWeightPairs.flatMap fun p => [p.1, p.2]), x.isNaN = false := by
    intro k r hk hlt h
    obtain ⟨r', h', hl, hf, -⟩ := C56_first_kind hL mode hk hlt
    rw [h, Option.some_inj] at h'; subst h'
    refine fin hl fun p hp => ?_
    obtain ⟨i, hi, rfl⟩ := List.getElem_of_mem hp
    have := hf i (by omega)
    exact ⟨this.1, this.2.1⟩
  have c2 : ∀ {k : ℕ} {r : Rule F64}, 0 < k → k < 2 ^ 52 → GaussChebyshevSecondKind.new mode k = some r → r.degree = k ∧
      ∀ x ∈ (r.nodeWeightPairs.flatMap fun p => [p.1, p.2]), x.isNaN = false := by
    intro k r hk hlt h
    obtain ⟨r', h', hl, hf, -⟩ := C56_second_kind hL hS mode hk hlt
    rw [h, Option.some_inj] at h'; subst h'
    refine fin hl fun p hp => ?_
    obtain ⟨i, hi, rfl⟩ := List.getElem_of_mem hp
    have := hf i (by omega)
    exact ⟨this.1, this.2.1⟩
  refine ⟨fun h1 h2 r r' hr hr' => ⟨fun h => ?_, fun h => ?_⟩, fun h1 h2 r r' hr hr' => ⟨fun h => ?_, fun h => ?_⟩,
    fun h1 h2 r r' hr hr' => ⟨fun h => ?_, fun h => ?_⟩⟩
  · have := ((C80_equality _ _).1 h).2.1
    rw [← (leg hn h1 hr).1, ← (leg hm h2 hr').1]; exact this
  · subst h; rw [hr, Option.some_inj] at hr'; subst hr'
    exact (C80_equivalence (.legendre r)).1.2 (leg hn h1 hr).2
  · have := ((C80_equality _ _).1 h).2.1
    rw [← (c1 hn h1 hr).1, ← (c1 hm h2 hr').1]; exact this
  · subst h; rw [hr, Option.some_inj] at hr'; subst hr'
    exact (C80_equivalence (.chebyshevFirst r)).1.2 (c1 hn h1 hr).2
  · have := ((C80_equality _ _).1 h).2.1
    rw [← (c2 hn h1 hr).1, ← (c2 hm h2 hr').1]; exact this
  · subst h; rw [hr, Option.some_inj] at hr'; subst hr'
    exact (C80_equivalence (.chebyshevSecond r)).1.2 (c2 hn h1 hr).2

/-- C80: equality of constructed Laguerre and Jacobi rules implies equal degrees and equal parameters, for every eigensolver -/
theorem C80_parameters (mode : Overflow) (ext ext' : Externals F64) {n m : ℕ} (hn : 0 < n) (hm : 0 < m) (α β α' β' : FiniteAboveNegOne F64) :
    (∀ r r', GaussLaguerre.new ext n α = some r → GaussLaguerre.new ext' m α' = some r' → (AnyRule.laguerre r).eq (.laguerre r') = true →
      n = m ∧ NumEq α.get α'.get) ∧
    (n + 1 < 2 ^ 64 → m + 1 < 2 ^ 64 → Valid α.get → Valid β.get → Valid α'.get → Valid β'.get →
      ∀ r r', GaussJacobi.new mode ext n α β = some r → GaussJacobi.new mode ext' m α' β' = some r' →
      (AnyRule.jacobi r).eq (.jacobi r') = true → n = m ∧ NumEq α.get α'.get ∧ NumEq β.get β'.get) := by
  constructor
  · intro r r' hr hr' h
    obtain ⟨s, hs, hv, ha⟩ := C08_laguerre ext hn α
    obtain ⟨s', hs', hv', ha'⟩ := C08_laguerre ext' hm α'
    rw [hr, Option.some_inj] at hs; subst hs
    rw [hr', Option.some_inj] at hs'; subst hs'
    have h2 : (pairsEq r.nodeWeightPairs r'.nodeWeightPairs && r.alpha.eq r'.alpha) = true := h
    rw [Bool.and_eq_true] at h2
    refine ⟨?_, ?_⟩
    · have := ((C80_equality _ _).1 h).2.1
      exact hv.1.symm.trans (this.trans hv'.1)
    · rw [← ha, ← ha']; exact feq_iff.1 h2.2
  · intro h1 h2 va vb va' vb' r r' hr hr' h
    obtain ⟨s, hs, hl⟩ := jacobi_new_some mode ext hn h1 α β
    obtain ⟨s', hs', hl'⟩ := jacobi_new_some mode ext' hm h2 α' β'
    rw [hr, Option.some_inj] at hs; subst hs
    rw [hr', Option.some_inj] at hs'; subst hs'
    have hself : ∀ x : F64, x.isFinite = true → feq x x = true := fun x hx => feq_iff.2 (NumEq.self_iff.2 (isNaN_of_finite hx))
    have hsym : ∀ x y : F64, feq x y = feq y x := by
      intro x y; rw [Bool.eq_iff_iff, feq_iff, feq_iff]; exact ⟨NumEq.symm, NumEq.symm⟩
    have p := C39_parameters mode ext n α β hsym (hself _ va.1) (hself _ vb.1) r hr
    have p' := C39_parameters mode ext' m α' β' hsym (hself _ va'.1) (hself _ vb'.1) r' hr'
    have h3 : (pairsEq r.nodeWeightPairs r'.nodeWeightPairs && (r.alpha.eq r'.alpha && r.beta.eq r'.beta)) = true := h
    rw [Bool.and_eq_true, Bool.and_eq_true] at h3
    refine ⟨?_, ?_, ?_⟩
    · have := ((C80_equality _ _).1 h).2.1
      exact hl.symm.trans (this.trans hl')
    · exact (feq_iff.1 p.1).symm.trans ((feq_iff.1 h3.2.1).trans (feq_iff.1 p'.1))
    · exact (feq_iff.1 p.2).symm.trans ((feq_iff.1 h3.2.2).trans (feq_iff.1 p'.2))

/-- C80, a finding: a Gauss-Jacobi rule of degree 2 or more whose parameters add up to -1 (other than the pair -1/2, -1/2) is not
equal to its own clone. -/
theorem C80_jacobi_clone (h0 : SinOfZero) (mode : Overflow) (ext : Externals F64) (n : ℕ) (hn : 2 ≤ n) (α β : FiniteAboveNegOne F64)
    (hfin : (α.get +ᶠ β.get).isFinite = true) (hsum : (α.get +ᶠ β.get).val = -1)
    (hne : ¬ (feq α.get (lit (-0.5)) = true ∧ feq β.get (lit (-0.5)) = true)) :
    ∃ r, GaussJacobi.new mode ext n α β = some r ∧ ∀ R', (AnyRule.jacobi r).eq R' = false := by
  obtain ⟨r, hr, hd, hw⟩ := C35_nan_weights h0 mode ext n hn α β hfin hsum hne
  refine ⟨r, hr, fun R' => ((C80_equivalence (.jacobi r)).2.2.2 (fun hc => ?_) R').1⟩
  have hpos : 0 < r.nodeWeightPairs.length := by
    have : r.nodeWeightPairs.length = n := hd
    omega
  have hp : r.nodeWeightPairs[0] ∈ r.nodeWeightPairs := List.getElem_mem hpos
  have h1 := hw _ hp
  have h2 := hc (r.nodeWeightPairs[0]).2 (List.mem_append_left _ (mem_stored_pairs.2 ⟨_, hp, .inr rfl⟩))
  rw [h1] at h2; cases h2

/-- alpha = -1/4, beta = -3/4, any degree from 2 on: the rule is not equal to itself -/
example (h0 : SinOfZero) (ext : Externals F64) (n : ℕ) (hn : 2 ≤ n) : ∃ r, GaussJacobi.new .checked ext n ⟨lit (-0.25)⟩ ⟨lit (-0.75)⟩ = some r ∧
    (AnyRule.jacobi r).eq (AnyRule.jacobi r).clone = false := by
  have hs : F64.add (F64.round (-0.25) false) (F64.round (-0.75) false) = F64.round (-1) false := by decide +kernel
  have hsum : ((⟨lit (-0.25)⟩ : FiniteAboveNegOne F64).get +ᶠ (⟨lit (-0.75)⟩ : FiniteAboveNegOne F64).get : F64) = F64.round (-1) false := hs
  obtain ⟨r, hr, h⟩ := C80_jacobi_clone h0 .checked ext n hn ⟨lit (-0.25)⟩ ⟨lit (-0.75)⟩
    (by rw [hsum]; exact val_negOne.2) (by rw [hsum]; exact val_negOne.1) (by
      rintro ⟨h1, -⟩
      change F64.eqb (F64.round (-0.25) false) (F64.round (-0.5) false) = true at h1
      revert h1
      decide +kernel)
  exact ⟨r, hr, h _⟩

/-- C80: conversions and equality: converted rules are equal exactly if the originals are. -/
theorem C80_conversions (r r' : Rule F64) :
    ((AnyRule.jacobi (GaussJacobi.ofLegendre r)).eq (.jacobi (GaussJacobi.ofLegendre r')) = (AnyRule.legendre r).eq (.legendre r')) ∧
    ((AnyRule.jacobi (GaussJacobi.ofChebyshevFirstKind r)).eq (.jacobi (GaussJacobi.ofChebyshevFirstKind r')) =
      (AnyRule.chebyshevFirst r).eq (.chebyshevFirst r')) ∧
    ((AnyRule.jacobi (GaussJacobi.ofChebyshevSecondKind r)).eq (.jacobi (GaussJacobi.ofChebyshevSecondKind r')) =
      (AnyRule.chebyshevSecond r).eq (.chebyshevSecond r')) := by
  have e : ∀ q : ℚ, feq (lit q : F64) (lit q) = true := fun q => feq_iff.2 (NumEq.self_iff.2 (round_isNaN _ _))
  have e' : ∀ q : ℚ, (⟨lit q⟩ : FiniteAboveNegOne F64).eq ⟨lit q⟩ = true := e
  refine ⟨?_, ?_, ?_⟩ <;>
    simp [AnyRule.eq, JacobiRule.eq, Rule.eq, GaussJacobi.ofLegendre, GaussJacobi.ofChebyshevFirstKind,
      GaussJacobi.ofChebyshevSecondKind, e', Rule.intoNodeWeightPairs]

/-! ### equal rules give equal results -/

/-- both NaN, or IEEE equal: the same up to the sign of zero -/
def Same (x y : F64) : Prop := (x.isNaN = true ∧ y.isNaN = true) ∨ NumEq x y

omit L in
theorem same_of_key {x y : F64} (hx : x.isNaN = false) (hy : y.isNaN = false) (h : x.key = y.key) : Same x y := by
  refine .inr ⟨hx, hy, (key_eq_iff _ _).1 h, ?_⟩
  have hm : x.mag = y.mag := by unfold key at h; split at h <;> split at h <;> omega
  exact (isInf_congr hm).1

omit L in
theorem Same.refl (x : F64) : Same x x := by
  by_cases h : x.isNaN = true
  · exact .inl ⟨h, h⟩
  · rw [Bool.not_eq_true] at h; exact .inr (NumEq.self_iff.2 h)

omit L in
theorem round_key_congr (q : ℚ) (s s' : Bool) : (F64.round q s).key = (F64.round q s').key :=
  le_antisymm (round_key_mono le_rfl _ _) (round_key_mono le_rfl _ _)

omit L in
theorem NumEq.cases {x y : F64} (h : NumEq x y) : x = y ∨ (x.isFinite = true ∧ y.isFinite = true ∧ x.isZero = true ∧ y.isZero = true) := by
  have hk := (key_eq_iff x y).2 h.2.2.1
  have hm : x.mag = y.mag := by unfold key at hk; split at hk <;> split at hk <;> omega
  by_cases h0 : x.mag = 0
  · refine .inr ?_
    have : y.mag = 0 := hm ▸ h0
    have hi : (0 : ℕ) < infMag := by decide
    simp [F64.isFinite, F64.isZero, h0, this, hi]
  · refine .inl ?_
    have hs : x.sign = y.sign := by
      unfold key at hk
      cases hx : x.sign <;> cases hy : y.sign <;> simp [hx, hy, hm] at hk <;> first | rfl | omega
    rcases x with ⟨s, m, hx⟩
    rcases y with ⟨s', m', hy⟩
    simp only at hm hs
    subst hm; subst hs; rfl

omit L in
theorem val_of_isZero {x : F64} (h : x.isZero = true) : x.val = 0 := by
  have h0 : x.key = (zero false).key := by
    simp only [isZero, decide_eq_true_eq] at h
    simp [key, h, zero]
  rw [(key_eq_iff _ _).1 h0, val_zero]

omit L in
theorem Same.add {x x' y y' : F64} (hx : Same x x') (hy : Same y y') : Same (F64.add x y) (F64.add x' y') := by
  rcases hx with ⟨h, h'⟩ | hx
  · exact .inl ⟨add_nan (.inl h), add_nan (.inl h')⟩
  rcases hy with ⟨h, h'⟩ | hy
  · exact .inl ⟨add_nan (.inr h), add_nan (.inr h')⟩
  have fin : x.isFinite = true → y.isFinite = true → x'.isFinite = true → y'.isFinite = true → Same (F64.add x y) (F64.add x' y') := by
    intro f1 f2 f3 f4
    rw [add_fin f1 f2, add_fin f3 f4, hx.2.2.1, hy.2.2.1]
    exact same_of_key (round_isNaN _ _) (round_isNaN _ _) (round_key_congr _ _ _)
  have one : ∀ {u u' v : F64}, u.isFinite = true → u'.isFinite = true → u.val = u'.val → v.isNaN = false → Same (F64.add u v) (F64.add u' v) := by
    intro u u' v f1 f2 hv nv
    rcases nan_trichotomy v nv with hi | hf
    · have : ∀ w : F64, w.isFinite = true → F64.add w v = v := by
        intro w hw
        unfold F64.add
        simp [isNaN_of_finite hw, isInf_of_finite hw, nv, hi]
      rw [this u f1, this u' f2]; exact Same.refl v
    · rw [add_fin f1 hf, add_fin f2 hf, hv]
      exact same_of_key (round_isNaN _ _) (round_isNaN _ _) (round_key_congr _ _ _)
  rcases hx.cases with ex | ⟨a1, a2, -, -⟩
  · rcases hy.cases with ey | ⟨b1, b2, -, -⟩
    · rw [ex, ey]; exact Same.refl _
    · rw [ex, addComm x' y, addComm x' y']; exact one b1 b2 hy.2.2.1 hx.2.1
  · rcases hy.cases with ey | ⟨b1, b2, -, -⟩
    · rw [ey]; exact one a1 a2 hx.2.2.1 hy.2.1
    · exact fin a1 b1 a2 b2

omit L in
theorem Same.mul {x x' y y' : F64} (hx : Same x x') (hy : Same y y') : Same (F64.mul x y) (F64.mul x' y') := by
  rcases hx with ⟨h, h'⟩ | hx
  · exact .inl ⟨mul_nan (.inl h), mul_nan (.inl h')⟩
  rcases hy with ⟨h, h'⟩ | hy
  · exact .inl ⟨mul_nan (.inr h), mul_nan (.inr h')⟩
  have one : ∀ {u u' v v' : F64}, u.isFinite = true → u'.isFinite = true → u.isZero = true → u'.isZero = true → NumEq v v' →
      Same (F64.mul u v) (F64.mul u' v') := by
    intro u u' v v' f1 f2 z1 z2 hv
    by_cases hi : v.isInf = true
    · have hi' : v'.isInf = true := by rw [← hv.2.2.2]; exact hi
      have : ∀ w t : F64, w.isFinite = true → w.isZero = true → t.isNaN = false → t.isInf = true → F64.mul w t = nan := by
        intro w t hw hz ht hti
        unfold F64.mul
        simp [isNaN_of_finite hw, isInf_of_finite hw, ht, hti, hz]
      rw [this u v f1 z1 hv.1 hi, this u' v' f2 z2 hv.2.1 hi']; exact Same.refl _
    · have g1 := (nan_trichotomy v hv.1).resolve_left hi
      have g2 := (nan_trichotomy v' hv.2.1).resolve_left (by rw [← hv.2.2.2]; exact hi)
      rw [mul_fin f1 g1, mul_fin f2 g2, val_of_isZero z1, val_of_isZero z2, zero_mul, zero_mul]
      exact same_of_key (round_isNaN _ _) (round_isNaN _ _) (round_key_congr _ _ _)
  rcases hx.cases with ex | ⟨a1, a2, z1, z2⟩
  · rcases hy.cases with ey | ⟨b1, b2, z1, z2⟩
    · rw [ex, ey]; exact Same.refl _
    · rw [mulComm x y, mulComm x' y']; exact one b1 b2 z1 z2 hx
  · exact one a1 a2 z1 z2 hy

/-- the integrand does not tell `0.0` from `-0.0` -/
def ZeroBlind (f : F64 → F64) : Prop := ∀ x y, Same x y → Same (f x) (f y)

/-- C80: equal rules give the same result (up to the sign of a zero) for every integrand that does not tell `0.0` from `-0.0`;
the hypothesis is needed because nodes `0.0` and `-0.0` are equal. -/
theorem C80_results (R R' : AnyRule F64) (h : R.eq R' = true) (a b : F64) (f : F64 → F64) (hf : ZeroBlind f) :
    Same (R.value a b f) (R'.value a b f) := by
  have pairs : ∀ {l l' : List (F64 × F64)}, pairsEq l l' = true → List.Forall₂ (fun p q => NumEq p.1 q.1 ∧ NumEq p.2 q.2) l l' := by
    intro l
    induction l with
    | nil => intro l' h; cases l' with
      | nil => exact .nil
      | cons => cases h
    | cons p ps ih => intro l' h; cases l' with
      | nil => cases h
      | cons q qs =>
        simp only [pairsEq, Bool.and_eq_true, feq_iff] at h
        exact .cons h.1 (ih h.2)
  have wsum : ∀ {l l' : List (F64 × F64)} (t : F64 → F64), (∀ x y, NumEq x y → Same (t x) (t y)) → pairsEq l l' = true →
      Same (weighted l ((l.map fun p => t p.1).map f)) (weighted l' ((l'.map fun p => t p.1).map f)) := by
    intro l l' t ht h
    refine foldl_rel (fun h1 h2 => Same.add h1 h2) ?_ (Same.refl _)
    have := pairs h
    induction this with
    | nil => exact .nil
    | @cons p q ps qs hpq _ ih =>
      simp only [List.map_cons, List.zipWith_cons_cons]
      refine .cons (Same.mul (hf _ _ (ht _ _ hpq.1)) (.inr hpq.2)) (ih ?_)
      simp only [pairsEq, Bool.and_eq_true] at h
      exact h.2
  have arg : ∀ x y : F64, NumEq x y → Same (lit 0.5 *ᶠ ((b -ᶠ a) *ᶠ x +ᶠ (b +ᶠ a))) (lit 0.5 *ᶠ ((b -ᶠ a) *ᶠ y +ᶠ (b +ᶠ a))) :=
    fun x y hxy => Same.mul (Same.refl _) (Same.add (Same.mul (Same.refl _) (.inr hxy)) (Same.refl _))
  have nodeEq : ∀ q q' : NodeRule, q.eq q' = true → q = q' := by
    intro q q' hq
    rcases q with ⟨d, _, _⟩; rcases q' with ⟨d', _, _⟩
    simp only [NodeRule.eq, beq_iff_eq] at hq; subst hq; rfl
  rw [C15_value, C15_value]
  cases R <;> cases R' <;> simp only [AnyRule.eq, Rule.eq, LaguerreRule.eq, JacobiRule.eq, Bool.and_eq_true, Bool.false_eq_true] at h
  · rw [nodeEq _ _ h]; exact Same.refl _
  · rw [nodeEq _ _ h]; exact Same.refl _
  · rw [nodeEq _ _ h]; exact Same.refl _
  · exact Same.mul (Same.refl _) (wsum (fun x => lit 0.5 *ᶠ ((b -ᶠ a) *ᶠ x +ᶠ (b +ᶠ a))) arg h)
  · exact Same.mul (wsum (fun x => lit 0.5 *ᶠ ((b -ᶠ a) *ᶠ x +ᶠ (b +ᶠ a))) arg h) (Same.refl _)
  · exact Same.mul (wsum (fun x => lit 0.5 *ᶠ ((b -ᶠ a) *ᶠ x +ᶠ (b +ᶠ a))) arg h) (Same.refl _)
  · exact Same.mul (Same.refl _) (wsum (fun x => lit 0.5 *ᶠ ((b -ᶠ a) *ᶠ x +ᶠ (b +ᶠ a))) arg h.1)
  · exact wsum (fun x => x) (fun _ _ hxy => .inr hxy) h
  · exact wsum (fun x => x) (fun _ _ hxy => .inr hxy) h.1

/-- the hypothesis of `C80_results` is met by `x ↦ x*x + 1` -/
example : ZeroBlind fun x => F64.add (F64.mul x x) (F64.round 1 false) := fun _ _ h => Same.add (Same.mul h h) (Same.refl _)

/-- without it the claim is false: two equal Hermite rules with nodes `0.0` and `-0.0`, integrand `1/x`: `+∞` and `-∞` -/
example : ∃ R R' : AnyRule F64, R.eq R' = true ∧ ∃ f : F64 → F64,
    R.value (zero false) (zero false) f = inf false ∧ R'.value (zero false) (zero false) f = inf true := by
  have h1 : F64.add (zero true) (F64.mul (F64.div (F64.round 1 false) (zero false)) (F64.round 1 false)) = inf false := by decide +kernel
  have h2 : F64.add (zero true) (F64.mul (F64.div (F64.round 1 false) (zero true)) (F64.round 1 false)) = inf true := by decide +kernel
  have h3 : (eqb (zero false) (zero true) && eqb (F64.round 1 false) (F64.round 1 false)) = true := by decide +kernel
  refine ⟨.hermite ⟨[(zero false, F64.round 1 false)]⟩, .hermite ⟨[(zero true, F64.round 1 false)]⟩, ?_,
    fun x => F64.div (F64.round 1 false) x, ?_, ?_⟩
  · simp only [AnyRule.eq, Rule.eq, pairsEq, Bool.and_true]; exact h3
  · rw [C15_value]; simp only [points, combine, weighted, List.map_cons, List.map_nil, List.zipWith_cons_cons, List.zipWith_nil_right, List.foldl_cons, List.foldl_nil]; exact h1
  · rw [C15_value]; simp only [points, combine, weighted, List.map_cons, List.map_nil, List.zipWith_cons_cons, List.zipWith_nil_right, List.foldl_cons, List.foldl_nil]; exact h2

/-- `Simpson` rules with 3 and 4 panels differ, two with 3 panels are equal -/
example : (AnyRule.simpson ⟨3, by decide, by decide⟩ : AnyRule F64).eq (.simpson ⟨4, by decide, by decide⟩) = false ∧
    (AnyRule.simpson ⟨3, by decide, by decide⟩ : AnyRule F64).eq (.simpson ⟨3, by decide, by decide⟩) = true := ⟨rfl, rfl⟩

/-- with a suitable backend the rules of degree 1000 and 1001 differ -/
example : ∃ _L : Libm, ∃ r r' : Rule F64, GaussLegendre.new .checked 1000 = some r ∧ GaussLegendre.new .checked 1001 = some r' ∧
    (AnyRule.legendre r).eq (.legendre r') = false ∧ (AnyRule.legendre r).eq (.legendre r) = true := by
  obtain ⟨L, hL, hS, -⟩ := accurateLibm_exists
  obtain ⟨r, hr, -⟩ := C08_legendre (F := F64) .checked (n := 1000) (by decide)
  obtain ⟨r', hr', -⟩ := C08_legendre (F := F64) .checked (n := 1001) (by decide)
  refine ⟨L, r, r', hr, hr', ?_, ?_⟩
  · by_contra hc; rw [Bool.not_eq_false] at hc
    have := ((C80_legendre_chebyshev hL hS .checked (n := 1000) (m := 1001) (by decide) (by decide)).1 (by decide) (by decide) r r' hr hr').1 hc
    omega
  · exact ((C80_legendre_chebyshev hL hS .checked (n := 1000) (m := 1000) (by decide) (by decide)).1 (by decide) (by decide) r r hr hr).2 rfl

/-- equal rules and an integrand that cannot tell the zeros apart -/
example (R R' : AnyRule F64) (h : R.eq R' = true) (a b : F64) :
    Same (R.value a b fun x => F64.add (F64.mul x x) (F64.round 1 false)) (R'.value a b fun x => F64.add (F64.mul x x) (F64.round 1 false)) :=
  C80_results R R' h a b _ fun _ _ h => Same.add (Same.mul h h) (Same.refl _)

/-- Gauss-Laguerre rules for different parameters are different -/
example (ext : Externals F64) (r r' : LaguerreRule F64) (h : GaussLaguerre.new ext 5 ⟨F64.round (1 / 2) false⟩ = some r)
    (h' : GaussLaguerre.new ext 5 ⟨F64.round 2 false⟩ = some r') : (AnyRule.laguerre r).eq (.laguerre r') = false := by
  cases he : (AnyRule.laguerre r).eq (.laguerre r') with
  | false => rfl
  | true =>
    have h2 := ((C80_parameters .checked ext ext (n := 5) (m := 5) (by decide) (by decide) ⟨F64.round (1 / 2) false⟩ ⟨F64.zero false⟩
      ⟨F64.round 2 false⟩ ⟨F64.zero false⟩).1 r r' h h' he).2
    exact absurd h2 (by unfold NumEq FiniteAboveNegOne.get; decide +kernel)

end

end GaussQuad.Props
