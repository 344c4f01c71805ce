import Verif.Proofs.F64Monotone
import Verif.Proofs.F64Nat
import Verif.Proofs.Protocol

/-!
# Relations and predicates that pass through the arithmetic of `integrate`

`Compat`: a relation between two runs that every step preserves passes from the values of the integrand to the results.
`Sticky`: a defect (NaN, not finite) that every step preserves passes from any single value to the result.
Both for the sequential result (`combine`) and for `par_integrate` under a fixed schedule.
-/

set_option exponentiation.threshold 3000

namespace GaussQuad.F64
open Spec FloatOps

/-- the stored weights of a rule; the Newton-Cotes rules store none -/
def storedWeights : AnyRule F64 → List F64
  | .midpoint _ => []
  | .trapezoid _ => []
  | .simpson _ => []
  | .legendre r => r.nodeWeightPairs.map (·.2)
  | .chebyshevFirst r => r.nodeWeightPairs.map (·.2)
  | .chebyshevSecond r => r.nodeWeightPairs.map (·.2)
  | .jacobi r => r.nodeWeightPairs.map (·.2)
  | .hermite r => r.nodeWeightPairs.map (·.2)
  | .laguerre r => r.nodeWeightPairs.map (·.2)

/-- the rule takes bounds -/
def hasBounds : AnyRule F64 → Bool
  | .hermite _ => false
  | .laguerre _ => false
  | _ => true

section
variable [L : Libm]

/-- `r` is preserved by the operations of `integrate`; `ok` says which fixed factors may occur -/
structure Compat (r : F64 → F64 → Prop) (ok : F64 → Prop) : Prop where
  init : r (zero true) (zero true)
  add : ∀ {x x' y y'}, r x x' → r y y' → r (F64.add x y) (F64.add x' y')
  mul : ∀ {x x' w}, ok w → r x x' → r (F64.mul x w) (F64.mul x' w)
  two : ∀ {x x'}, r x x' → r (F64.div x (lit 2.0)) (F64.div x' (lit 2.0))
  ok_two : ok (lit 2.0)
  ok_four : ok (lit 4.0)

variable {r : F64 → F64 → Prop} {ok : F64 → Prop}

omit L in
theorem foldl_rel (hadd : ∀ {x x' y y'}, r x x' → r y y' → r (F64.add x y) (F64.add x' y')) {ys zs : List F64}
    (h : List.Forall₂ r ys zs) : ∀ {acc acc' : F64}, r acc acc' → r (ys.foldl F64.add acc) (zs.foldl F64.add acc') := by
  induction h with
  | nil => intro acc acc' h; exact h
  | cons hyz _ ih => intro acc acc' hacc; exact ih (hadd hacc hyz)

theorem Compat.sum (H : Compat r ok) {ys zs : List F64} (h : List.Forall₂ r ys zs) :
    r (ys.foldl (· +ᶠ ·) sumInit) (zs.foldl (· +ᶠ ·) sumInit) := foldl_rel H.add h H.init

theorem Compat.mul' (H : Compat r ok) {x x' w : F64} (hw : ok w) (h : r x x') : r (F64.mul w x) (F64.mul w x') := by
  rw [mulComm w x, mulComm w x']; exact H.mul hw h

omit L in
theorem forall₂_getD {ys zs : List F64} (h : List.Forall₂ r ys zs) {d : F64} (hd : r d d) (i : ℕ) : r (ys.getD i d) (zs.getD i d) := by
  induction h generalizing i with
  | nil => simpa using hd
  | cons hyz _ ih => cases i with
    | zero => simpa using hyz
    | succ i => simpa using ih i

theorem Compat.weighted (H : Compat r ok) {pairs : List (F64 × F64)} (hw : ∀ p ∈ pairs, ok p.2) {ys zs : List F64}
    (h : List.Forall₂ r ys zs) : r (weighted pairs ys) (weighted pairs zs) := by
  refine H.sum ?_
  induction h generalizing pairs with
  | nil => simp
  | @cons y z ys zs hyz _ ih =>
    cases pairs with
    | nil => simp
    | cons p ps =>
      simp only [List.zipWith_cons_cons]
      exact .cons (H.mul (hw p (by simp)) hyz) (ih fun q hq => hw q (List.mem_cons_of_mem _ hq))

/-- the factors by which the final sum is multiplied -/
def finalFactor (a b : F64) : AnyRule F64 → F64
  | .midpoint r => (b -ᶠ a) /ᶠ ofNat r.degree
  | .trapezoid r => (b -ᶠ a) /ᶠ ofNat r.degree
  | .simpson r => (b -ᶠ a) /ᶠ ofNat r.degree /ᶠ lit 6.0
  | .hermite _ => lit 2.0
  | .laguerre _ => lit 2.0
  | _ => lit 0.5 *ᶠ (b -ᶠ a)

theorem Compat.combine (H : Compat r ok) (R : AnyRule F64) {a b : F64} (hw : ∀ w ∈ storedWeights R, ok w)
    (hf : ok (finalFactor a b R)) {ys zs : List F64} (h : List.Forall₂ r ys zs) :
    r (combine a b R ys) (combine a b R zs) := by
  have hw' : ∀ {pairs : List (F64 × F64)}, (∀ w ∈ pairs.map (·.2), ok w) → ∀ p ∈ pairs, ok p.2 :=
    fun h p hp => h _ (List.mem_map_of_mem hp)
  cases R with
  | midpoint q => exact H.mul hf (H.sum h)
  | trapezoid q =>
    exact H.mul hf (H.add (H.two (H.add (forall₂_getD h H.init _) (forall₂_getD h H.init _)))
      (H.sum (List.forall₂_drop 2 h)))
  | simpson q =>
    refine H.mul' hf ?_
    refine H.add (H.add (H.add (H.add (H.mul' H.ok_two (H.sum (List.forall₂_take _ h)))
      (H.mul' H.ok_four (H.sum (List.forall₂_take _ (List.forall₂_drop _ h))))) (H.mul' H.ok_four ?_)) ?_) ?_
    all_goals exact forall₂_getD h H.init _
  | legendre q => exact H.mul' hf (H.weighted (hw' hw) h)
  | chebyshevFirst q => exact H.mul hf (H.weighted (hw' hw) h)
  | chebyshevSecond q => exact H.mul hf (H.weighted (hw' hw) h)
  | jacobi q => exact H.mul' hf (H.weighted (hw' hw) h)
  | hermite q => exact H.weighted (hw' hw) h
  | laguerre q => exact H.weighted (hw' hw) h

theorem Compat.parSum (H : Compat r ok) {α : Type} (s : Schedule) : ∀ {xs : List α} {g g' : α → F64},
    (∀ x ∈ xs, r (g x) (g' x)) → r (parSumMap s xs g) (parSumMap s xs g') := by
  have red : ∀ {x x' y y'}, r x x' → r y y' → r (sumReduce x y) (sumReduce x' y') := by
    intro x x' y y' h1 h2
    exact H.add (H.add H.init h1) h2
  induction s with
  | leaf =>
    intro xs g g' h
    refine red H.init (H.sum ?_)
    rw [List.forall₂_map_left_iff, List.forall₂_map_right_iff, List.forall₂_same]
    exact h
  | split mid l q ihl ihr =>
    intro xs g g' h
    exact red (ihl fun x hx => h x (List.mem_of_mem_take hx)) (ihr fun x hx => h x (List.mem_of_mem_drop hx))

theorem Compat.par (H : Compat r ok) (R : AnyRule F64) {a b : F64} (hw : ∀ w ∈ storedWeights R, ok w)
    (hf : ok (finalFactor a b R)) (s s' : Schedule) {f g : F64 → F64} (h : ∀ x ∈ points a b R, r (f x) (g x)) :
    r (R.parIntegrate s s' a b f) (R.parIntegrate s s' a b g) := by
  have hw' : ∀ {pairs : List (F64 × F64)}, (∀ w ∈ pairs.map (·.2), ok w) → ∀ p ∈ pairs, ok p.2 :=
    fun h p hp => h _ (List.mem_map_of_mem hp)
  have hrange : ∀ {n i : ℕ}, i ∈ List.range' 1 (n - 1) → ∃ j, j < n - 1 ∧ i = j + 1 := by
    intro n i hi
    rw [List.mem_range'_1] at hi
    exact ⟨i - 1, by omega, by omega⟩
  cases R with
  | midpoint q =>
    exact H.mul hf (H.parSum s fun i hi => h _ (List.mem_map.2 ⟨i, hi, rfl⟩))
  | trapezoid q =>
    refine H.mul hf (H.add (H.two (H.add (h _ ?_) (h _ ?_))) (H.parSum s fun i hi => h _ ?_))
    · simp [points]
    · simp [points]
    · obtain ⟨j, hj, rfl⟩ := hrange hi
      exact List.mem_append_right _ (List.mem_map.2 ⟨j, List.mem_range.2 hj, rfl⟩)
  | simpson q =>
    refine H.mul' hf ?_
    have hpos := q.pos
    refine H.add (H.add (H.add (H.add (H.mul' H.ok_two (H.parSum s fun i hi => h _ ?_))
      (H.mul' H.ok_four (H.parSum s' fun i hi => h _ ?_))) (H.mul' H.ok_four (h _ ?_))) (h _ ?_)) (h _ ?_)
    · obtain ⟨j, hj, rfl⟩ := hrange hi
      exact List.mem_append_left _ (List.mem_append_left _ (List.mem_map.2 ⟨j, List.mem_range.2 hj, rfl⟩))
    · obtain ⟨j, hj, rfl⟩ := hrange hi
      exact List.mem_append_left _ (List.mem_append_right _ (List.mem_map.2 ⟨j, List.mem_range.2 (by omega), rfl⟩))
    · refine List.mem_append_left _ (List.mem_append_right _ (List.mem_map.2 ⟨q.degree - 1, List.mem_range.2 (by omega), ?_⟩))
      rw [Nat.sub_add_cancel hpos]
    · simp [points]
    · simp [points]
  | legendre q => exact H.mul' hf (H.parSum s fun p hp => H.mul (hw' hw p hp) (h _ (List.mem_map.2 ⟨p, hp, rfl⟩)))
  | chebyshevFirst q => exact H.mul hf (H.parSum s fun p hp => H.mul (hw' hw p hp) (h _ (List.mem_map.2 ⟨p, hp, rfl⟩)))
  | chebyshevSecond q => exact H.mul hf (H.parSum s fun p hp => H.mul (hw' hw p hp) (h _ (List.mem_map.2 ⟨p, hp, rfl⟩)))
  | jacobi q => exact H.mul' hf (H.parSum s fun p hp => H.mul (hw' hw p hp) (h _ (List.mem_map.2 ⟨p, hp, rfl⟩)))
  | hermite q => exact H.parSum s fun p hp => H.mul (hw' hw p hp) (h _ (List.mem_map.2 ⟨p, hp, rfl⟩))
  | laguerre q => exact H.parSum s fun p hp => H.mul (hw' hw p hp) (h _ (List.mem_map.2 ⟨p, hp, rfl⟩))

/-! ## Defects that cannot disappear -/

/-- `P` is a defect that every operation with one bad argument passes on -/
structure Sticky (P : F64 → Prop) : Prop where
  add_left : ∀ {x} y, P x → P (F64.add x y)
  mul_left : ∀ {x} y, P x → P (F64.mul x y)
  div_left : ∀ {x} y, y.isFinite = true → P x → P (F64.div x y)

variable {P : F64 → Prop}

omit L in
theorem Sticky.add_right (H : Sticky P) {x : F64} (y : F64) (h : P x) : P (F64.add y x) := by rw [addComm]; exact H.add_left y h
omit L in
theorem Sticky.mul_right (H : Sticky P) {x : F64} (y : F64) (h : P x) : P (F64.mul y x) := by rw [mulComm]; exact H.mul_left y h

omit L in
theorem Sticky.foldl (H : Sticky P) (ys : List F64) : ∀ acc : F64, (P acc ∨ ∃ y ∈ ys, P y) → P (ys.foldl F64.add acc) := by
  induction ys with
  | nil => rintro acc (h | ⟨y, hy, -⟩); exacts [h, absurd hy (by simp)]
  | cons z zs ih =>
    rintro acc h
    refine ih _ ?_
    rcases h with h | ⟨y, hy, hn⟩
    · exact .inl (H.add_left _ h)
    · rcases List.mem_cons.1 hy with rfl | hy
      · exact .inl (H.add_right _ hn)
      · exact .inr ⟨y, hy, hn⟩

theorem Sticky.sum (H : Sticky P) {ys : List F64} (h : ∃ y ∈ ys, P y) : P (ys.foldl (· +ᶠ ·) sumInit) := H.foldl ys _ (.inr h)

theorem Sticky.weighted (H : Sticky P) {pairs : List (F64 × F64)} {ys : List F64} (hlen : ys.length = pairs.length)
    (h : (∃ y ∈ ys, P y) ∨ ∃ p ∈ pairs, P p.2) : P (weighted pairs ys) := by
  refine H.sum ?_
  have key : ∃ i, ∃ (h1 : i < ys.length) (h2 : i < pairs.length), P ys[i] ∨ P pairs[i].2 := by
    rcases h with ⟨y, hy, hP⟩ | ⟨p, hp, hP⟩
    · obtain ⟨i, hi, rfl⟩ := List.mem_iff_getElem.1 hy
      exact ⟨i, hi, hlen ▸ hi, .inl hP⟩
    · obtain ⟨i, hi, rfl⟩ := List.mem_iff_getElem.1 hp
      exact ⟨i, hlen ▸ hi, hi, .inr hP⟩
  obtain ⟨i, h1, h2, hP⟩ := key
  refine ⟨_, List.mem_iff_getElem.2 ⟨i, by simp [h1, h2], rfl⟩, ?_⟩
  rw [List.getElem_zipWith]
  rcases hP with hP | hP
  · exact H.mul_left _ hP
  · exact H.mul_right _ hP

theorem lit_two_finite : (lit 2.0 : F64).isFinite = true := by
  show (F64.round 2.0 false).isFinite = true; decide +kernel

theorem lit_six_finite : (lit 6.0 : F64).isFinite = true := by
  show (F64.round 6.0 false).isFinite = true; decide +kernel

theorem degree_finite (q : NodeRule) : (ofNat q.degree : F64).isFinite = true :=
  (val_round_nat (n := q.degree) (by have := q.lt; omega) false).2

/-- one bad value, or a bad weight, makes the result bad -/
theorem Sticky.combine (H : Sticky P) (R : AnyRule F64) {a b : F64} {ys : List F64} (hlen : ys.length = (points a b R).length)
    (h : (∃ y ∈ ys, P y) ∨ ∃ w ∈ storedWeights R, P w) : P (combine a b R ys) := by
  have hw : ∀ {pairs : List (F64 × F64)}, ((∃ y ∈ ys, P y) ∨ ∃ w ∈ pairs.map (·.2), P w) → (∃ y ∈ ys, P y) ∨ ∃ p ∈ pairs, P p.2 := by
    intro pairs h
    refine h.imp id ?_
    rintro ⟨w, hw, hP⟩
    obtain ⟨p, hp, rfl⟩ := List.mem_map.1 hw
    exact ⟨p, hp, hP⟩
  cases R with
  | midpoint q =>
    rcases h with h | ⟨w, hw, -⟩
    · exact H.mul_left _ (H.sum h)
    · simp [storedWeights] at hw
  | trapezoid q =>
    rcases h with ⟨y, hy, hP⟩ | ⟨w, hw, -⟩
    · refine H.mul_left _ ?_
      obtain ⟨i, hi, rfl⟩ := List.mem_iff_getElem.1 hy
      rcases i with _ | _ | i
      · refine H.add_left _ (H.div_left _ lit_two_finite (H.add_left _ ?_))
        rwa [List.getD_eq_getElem?_getD, List.getElem?_eq_getElem hi]
      · refine H.add_left _ (H.div_left _ lit_two_finite (H.add_right _ ?_))
        rwa [List.getD_eq_getElem?_getD, List.getElem?_eq_getElem hi]
      · refine H.add_right _ (H.sum ⟨_, List.mem_iff_getElem.2 ⟨i, by simp; omega, rfl⟩, ?_⟩)
        rw [List.getElem_drop]
        have e : 2 + i = i + 1 + 1 := by omega
        simp only [e]; exact hP
    · simp [storedWeights] at hw
  | simpson q =>
    rcases h with ⟨y, hy, hP⟩ | ⟨w, hw, -⟩
    · refine H.mul_right _ ?_
      obtain ⟨i, hi, rfl⟩ := List.mem_iff_getElem.1 hy
      have hpos := q.pos
      have hl : ys.length = 2 * q.degree + 1 := by rw [hlen]; simp [points]; omega
      have last : ∀ j, i = j → P (ys.getD j sumInit) := by
        rintro j rfl; rwa [List.getD_eq_getElem?_getD, List.getElem?_eq_getElem hi]
      by_cases h1 : i < q.degree - 1
      · refine H.add_left _ (H.add_left _ (H.add_left _ (H.add_left _ (H.mul_right _ (H.sum ⟨_, List.mem_iff_getElem.2 ⟨i, ?_, rfl⟩, ?_⟩)))))
        · simp; omega
        · rwa [List.getElem_take]
      by_cases h2 : i < 2 * q.degree - 2
      · refine H.add_left _ (H.add_left _ (H.add_left _ (H.add_right _ (H.mul_right _ (H.sum
          ⟨_, List.mem_iff_getElem.2 ⟨i - (q.degree - 1), ?_, rfl⟩, ?_⟩)))))
        · simp; omega
        · rw [List.getElem_take, List.getElem_drop]
          have e : q.degree - 1 + (i - (q.degree - 1)) = i := by omega
          simp only [e]; exact hP
      by_cases h3 : i = 2 * q.degree - 2
      · exact H.add_left _ (H.add_left _ (H.add_right _ (H.mul_right _ (last _ h3))))
      by_cases h4 : i = 2 * q.degree - 1
      · exact H.add_left _ (H.add_right _ (last _ h4))
      · exact H.add_right _ (last _ (by omega))
    · simp [storedWeights] at hw
  | legendre q => exact H.mul_right _ (H.weighted (by simpa [points] using hlen) (hw h))
  | chebyshevFirst q => exact H.mul_left _ (H.weighted (by simpa [points] using hlen) (hw h))
  | chebyshevSecond q => exact H.mul_left _ (H.weighted (by simpa [points] using hlen) (hw h))
  | jacobi q => exact H.mul_right _ (H.weighted (by simpa [points] using hlen) (hw h))
  | hermite q => exact H.weighted (by simpa [points] using hlen) (hw h)
  | laguerre q => exact H.weighted (by simpa [points] using hlen) (hw h)

/-- a bad interval length makes the result bad -/
theorem Sticky.combine_bounds (H : Sticky P) (R : AnyRule F64) {a b : F64} (hR : hasBounds R = true) (h : P (b -ᶠ a)) (ys : List F64) :
    P (Spec.combine a b R ys) := by
  cases R with
  | midpoint q => exact H.mul_right _ (H.div_left _ (degree_finite q) h)
  | trapezoid q => exact H.mul_right _ (H.div_left _ (degree_finite q) h)
  | simpson q => exact H.mul_left _ (H.div_left _ lit_six_finite (H.div_left _ (degree_finite q) h))
  | legendre q => exact H.mul_left _ (H.mul_right _ h)
  | chebyshevFirst q => exact H.mul_right _ (H.mul_right _ h)
  | chebyshevSecond q => exact H.mul_right _ (H.mul_right _ h)
  | jacobi q => exact H.mul_left _ (H.mul_right _ h)
  | hermite q => cases hR
  | laguerre q => cases hR

theorem Sticky.parSum (H : Sticky P) {α : Type} (s : Schedule) : ∀ {xs : List α} {g : α → F64},
    (∃ x ∈ xs, P (g x)) → P (parSumMap s xs g) := by
  induction s with
  | leaf =>
    rintro xs g ⟨x, hx, h⟩
    exact H.add_right _ (H.sum ⟨_, List.mem_map_of_mem hx, h⟩)
  | split mid l q ihl ihr =>
    rintro xs g ⟨x, hx, h⟩
    rw [← List.take_append_drop mid xs, List.mem_append] at hx
    rcases hx with hx | hx
    · exact H.add_left _ (H.add_right _ (ihl ⟨x, hx, h⟩))
    · exact H.add_right _ (ihr ⟨x, hx, h⟩)

theorem Sticky.par (H : Sticky P) (R : AnyRule F64) {a b : F64} (s s' : Schedule) {f : F64 → F64}
    (h : (∃ x ∈ points a b R, P (f x)) ∨ ∃ w ∈ storedWeights R, P w) : P (R.parIntegrate s s' a b f) := by
  have hw : ∀ {pairs : List (F64 × F64)} (t : F64 → F64), ((∃ x ∈ pairs.map (fun p => t p.1), P (f x)) ∨ ∃ w ∈ pairs.map (·.2), P w) →
      P (parSumMap s pairs fun p => f (t p.1) *ᶠ p.2) := by
    rintro pairs t (⟨x, hx, hP⟩ | ⟨w, hw, hP⟩)
    · obtain ⟨p, hp, rfl⟩ := List.mem_map.1 hx
      exact H.parSum s ⟨p, hp, H.mul_left _ hP⟩
    · obtain ⟨p, hp, rfl⟩ := List.mem_map.1 hw
      exact H.parSum s ⟨p, hp, H.mul_right _ hP⟩
  cases R with
  | midpoint q =>
    rcases h with ⟨x, hx, hP⟩ | ⟨w, hw, -⟩
    · obtain ⟨i, hi, rfl⟩ := List.mem_map.1 hx
      exact H.mul_left _ (H.parSum s ⟨i, hi, hP⟩)
    · simp [storedWeights] at hw
  | trapezoid q =>
    rcases h with ⟨x, hx, hP⟩ | ⟨w, hw, -⟩
    · refine H.mul_left _ ?_
      rcases List.mem_append.1 hx with hx | hx
      · refine H.add_left _ (H.div_left _ lit_two_finite ?_)
        simp only [List.mem_cons, List.not_mem_nil, or_false] at hx
        rcases hx with rfl | rfl
        · exact H.add_left _ hP
        · exact H.add_right _ hP
      · obtain ⟨i, hi, rfl⟩ := List.mem_map.1 hx
        rw [List.mem_range] at hi
        exact H.add_right _ (H.parSum s ⟨i + 1, by rw [List.mem_range'_1]; omega, hP⟩)
    · simp [storedWeights] at hw
  | simpson q =>
    rcases h with ⟨x, hx, hP⟩ | ⟨w, hw, -⟩
    · refine H.mul_right _ ?_
      have hpos := q.pos
      rcases List.mem_append.1 hx with hx | hx
      · rcases List.mem_append.1 hx with hx | hx
        · obtain ⟨i, hi, rfl⟩ := List.mem_map.1 hx
          rw [List.mem_range] at hi
          exact H.add_left _ (H.add_left _ (H.add_left _ (H.add_left _ (H.mul_right _
            (H.parSum s ⟨i + 1, by rw [List.mem_range'_1]; omega, hP⟩)))))
        · obtain ⟨i, hi, rfl⟩ := List.mem_map.1 hx
          rw [List.mem_range] at hi
          by_cases hl : i + 1 = q.degree
          · rw [hl] at hP
            exact H.add_left _ (H.add_left _ (H.add_right _ (H.mul_right _ hP)))
          · exact H.add_left _ (H.add_left _ (H.add_left _ (H.add_right _ (H.mul_right _
              (H.parSum s' ⟨i + 1, by rw [List.mem_range'_1]; omega, hP⟩)))))
      · simp only [List.mem_cons, List.not_mem_nil, or_false] at hx
        rcases hx with rfl | rfl
        · exact H.add_left _ (H.add_right _ hP)
        · exact H.add_right _ hP
    · simp [storedWeights] at hw
  | legendre q => exact H.mul_right _ (hw (fun x => lit 0.5 *ᶠ ((b -ᶠ a) *ᶠ x +ᶠ (b +ᶠ a))) h)
  | chebyshevFirst q => exact H.mul_left _ (hw (fun x => lit 0.5 *ᶠ ((b -ᶠ a) *ᶠ x +ᶠ (b +ᶠ a))) h)
  | chebyshevSecond q => exact H.mul_left _ (hw (fun x => lit 0.5 *ᶠ ((b -ᶠ a) *ᶠ x +ᶠ (b +ᶠ a))) h)
  | jacobi q => exact H.mul_right _ (hw (fun x => lit 0.5 *ᶠ ((b -ᶠ a) *ᶠ x +ᶠ (b +ᶠ a))) h)
  | hermite q => exact hw (fun x => x) h
  | laguerre q => exact hw (fun x => x) h

theorem Sticky.par_bounds (H : Sticky P) (R : AnyRule F64) {a b : F64} (hR : hasBounds R = true) (h : P (b -ᶠ a)) (s s' : Schedule)
    (f : F64 → F64) : P (R.parIntegrate s s' a b f) := by
  cases R with
  | midpoint q => exact H.mul_right _ (H.div_left _ (degree_finite q) h)
  | trapezoid q => exact H.mul_right _ (H.div_left _ (degree_finite q) h)
  | simpson q => exact H.mul_left _ (H.div_left _ lit_six_finite (H.div_left _ (degree_finite q) h))
  | legendre q => exact H.mul_left _ (H.mul_right _ h)
  | chebyshevFirst q => exact H.mul_right _ (H.mul_right _ h)
  | chebyshevSecond q => exact H.mul_right _ (H.mul_right _ h)
  | jacobi q => exact H.mul_left _ (H.mul_right _ h)
  | hermite q => cases hR
  | laguerre q => cases hR

end

end GaussQuad.F64
