import Verif.Model.Alloc
import Verif.Props.DataAccess

/-!
# C85: machine integers and memory

The Gauss-Legendre and Gauss-Chebyshev constructors with 64-bit arithmetic and allocation (`Model/Alloc`) end, for every degree, in one of four ways; when they return a
rule for a degree below `usize::MAX`, no integer operation has wrapped and the rule is the one all other theorems are about.
-/

namespace GaussQuad.Props
open Spec FloatOps
variable {F : Type} [FloatOps F]

/-- the four ways to end, stated without the constructors: `good` is the rule asked for -/
def constructorOutcome (A : Allocator) (mode : Overflow) (n : Nat) (good : Rule F) : Outcome (Rule F) :=
  if n = 2 ^ 64 - 1 then (if mode = .checked then .panic else .done ⟨[]⟩)
  else if 2 ^ 63 ≤ 16 * n then .panic
  else if A.grants (16 * n) = true then .done good
  else .abort

theorem nodeWeightPairMachine_eq (mode : Overflow) {n k : Nat} (h1 : 1 ≤ k) (hk : k ≤ n) (hn : n < 2 ^ 63) :
    Bogaert.nodeWeightPairMachine (F := F) mode n k = Bogaert.nodeWeightPair n k := by
  unfold Bogaert.nodeWeightPairMachine Bogaert.nodeWeightPair Bogaert.thetaWeightPairMachine Bogaert.ThetaWeightPair.new
  have e1 : usizeSub mode k 1 = csub k 1 := by simp [usizeSub, csub, h1]
  have e2 : usizeMul mode 2 k = some (2 * k) := by rw [usizeMul.eq_def, if_pos (by omega)]
  have e3 : usizeSub mode (2 * k) 1 = csub (2 * k) 1 := by simp [usizeSub, csub, show 1 ≤ 2 * k by omega]
  have e4 : usizeSub mode n k = csub n k := by simp [usizeSub, csub, hk]
  have e5 : csub n k = some (n - k) := by simp [csub, hk]
  have e6 : usizeAddOne mode (n - k) = some (n - k + 1) := by rw [usizeAddOne.eq_def, if_pos (by omega)]
  simp only [e1, e2, e3, e4, e5, e6, Option.bind_eq_bind, Option.bind_some]

theorem collect_cases (A : Allocator) (mode : Overflow) (s : Option Schedule) {n : Nat} (hn : 0 < n) (hlt : n < 2 ^ 64) {g g' : Nat → Option (F × F)} {good : Rule F}
    (hg : n < 2 ^ 63 → ∀ k, 1 ≤ k → k ≤ n → g k = g' k) (hgood : n ≠ 2 ^ 64 - 1 → (rangeRev (n + 1)).mapM g' = some good.nodeWeightPairs) :
    (match usizeAddOne mode n with
      | none => .panic
      | some hi => collectRange A s hi g) = constructorOutcome A mode n good := by
  have par : ∀ hi : Nat, collectRange A s hi g = collectPairs A (hi - 1) ((rangeRev hi).mapM g) := by
    intro hi; cases s with
    | none => rfl
    | some s => exact congrArg _ (parCollect_eq s _ _)
  unfold constructorOutcome
  by_cases hmax : n = 2 ^ 64 - 1
  · subst hmax
    cases mode
    · simp [usizeAddOne]
    · show collectRange A s ((2 ^ 64 - 1 + 1) % 2 ^ 64) g = _
      rw [par]
      simp [collectPairs, rangeRev, Outcome.ofOption]
  · rw [if_neg hmax, usizeAddOne.eq_def, if_pos (by omega)]
    simp only [par, collectPairs, Nat.add_sub_cancel, ge_iff_le]
    by_cases hbig : 2 ^ 63 ≤ 16 * n
    · rw [if_pos hbig, if_pos hbig]
    rw [if_neg hbig, if_neg hbig]
    have hm : (rangeRev (n + 1)).mapM g = some good.nodeWeightPairs := by
      rw [← hgood hmax]
      have : ∀ l : List Nat, (∀ k ∈ l, g k = g' k) → l.mapM g = l.mapM g' := by
        intro l
        induction l with
        | nil => intro _; rfl
        | cons k l ih =>
          intro h
          rw [List.mapM_cons, List.mapM_cons, h k (by simp), ih fun j hj => h j (by simp [hj])]
      refine this _ fun k hk => ?_
      rw [mem_rangeRev] at hk
      exact hg (by omega) k hk.1 (by omega)
    by_cases hA : A.grants (16 * n) = true
    · rw [if_pos (Or.inr hA), if_pos hA, hm]; rfl
    · rw [if_neg (by simp only [not_or]; exact ⟨by omega, hA⟩), if_neg hA]

/-- C85 for Gauss-Legendre, sequential and parallel -/
theorem C85_legendre (A : Allocator) (mode : Overflow) (s : Option Schedule) {n : Nat} (hn : 0 < n) (hlt : n < 2 ^ 64) {good : Rule F}
    (hgood : n ≠ 2 ^ 64 - 1 → GaussLegendre.new mode n = some good) :
    GaussLegendre.newMachine A mode s n = constructorOutcome A mode n good := by
  refine collect_cases A mode s hn hlt (g' := Bogaert.nodeWeightPair n) (fun h k h1 h2 => nodeWeightPairMachine_eq mode h1 h2 h) fun hne => ?_
  have h := hgood hne
  rw [GaussLegendre.new, usizeAddOne.eq_def, if_pos (by omega)] at h
  cases hc : (rangeRev (n + 1)).mapM (Bogaert.nodeWeightPair (F := F) n) with
  | none => simp [hc] at h
  | some l => simp [hc] at h; rw [← h]

theorem mapM_some_eq {α β : Type} (f : α → β) : ∀ l : List α, l.mapM (fun x => some (f x)) = some (l.map f)
  | [] => rfl
  | x :: l => by rw [List.mapM_cons, mapM_some_eq f l]; rfl

/-- C85 for both Gauss-Chebyshev rules, sequential and parallel -/
theorem C85_chebyshev (A : Allocator) (mode : Overflow) (s : Option Schedule) {n : Nat} (hn : 0 < n) (hlt : n < 2 ^ 64) :
    (∀ good : Rule F, (n ≠ 2 ^ 64 - 1 → GaussChebyshevFirstKind.new mode n = some good) →
      GaussChebyshevFirstKind.newMachine A mode s n = constructorOutcome A mode n good) ∧
    (∀ good : Rule F, (n ≠ 2 ^ 64 - 1 → GaussChebyshevSecondKind.new mode n = some good) →
      GaussChebyshevSecondKind.newMachine A mode s n = constructorOutcome A mode n good) := by
  constructor
  · intro good hgood
    refine collect_cases A mode s hn hlt (fun _ _ _ _ => rfl) fun hne => ?_
    have h := hgood hne
    rw [GaussChebyshevFirstKind.new, usizeAddOne.eq_def, if_pos (by omega)] at h
    simp at h
    rw [mapM_some_eq, ← h]
  · intro good hgood
    refine collect_cases A mode s hn hlt (fun _ _ _ _ => rfl) fun hne => ?_
    have h := hgood hne
    rw [GaussChebyshevSecondKind.new, usizeAddOne.eq_def, if_pos (by omega)] at h
    simp at h
    rw [mapM_some_eq, ← h]

/-- C85: whenever a constructor returns a rule for a degree below `usize::MAX`, the request was granted, the degree is below 2^59, and the rule is that of the
mathematical model. -/
theorem C85_returned (A : Allocator) (mode : Overflow) (s : Option Schedule) {n : Nat} (hn : 0 < n) (hlt : n < 2 ^ 64 - 1) (r : Rule F) :
    (GaussLegendre.newMachine A mode s n = .done r ↔ 16 * n < 2 ^ 63 ∧ A.grants (16 * n) = true ∧ GaussLegendre.new mode n = some r) ∧
    (GaussChebyshevFirstKind.newMachine A mode s n = .done r ↔ 16 * n < 2 ^ 63 ∧ A.grants (16 * n) = true ∧ GaussChebyshevFirstKind.new mode n = some r) ∧
    (GaussChebyshevSecondKind.newMachine A mode s n = .done r ↔ 16 * n < 2 ^ 63 ∧ A.grants (16 * n) = true ∧ GaussChebyshevSecondKind.new mode n = some r) := by
  obtain ⟨⟨r1, h1, -⟩, ⟨r2, h2, -⟩, ⟨r3, h3, -⟩⟩ := C45_all_other_degrees (F := F) mode n (by omega) (by omega)
  have key : ∀ good : Rule F, constructorOutcome A mode n good = .done r ↔ 16 * n < 2 ^ 63 ∧ A.grants (16 * n) = true ∧ good = r := by
    intro good
    unfold constructorOutcome
    rw [if_neg (by omega)]
    by_cases hb : 2 ^ 63 ≤ 16 * n
    · rw [if_pos hb]; simp only [reduceCtorEq, false_iff]; omega
    · rw [if_neg hb]
      by_cases hA : A.grants (16 * n) = true
      · rw [if_pos hA]; simp only [Outcome.done.injEq, hA, true_and]; exact ⟨fun h => ⟨by omega, h⟩, fun h => h.2⟩
      · rw [if_neg hA]; simp [hA]
  rw [C85_legendre A mode s hn (by omega) fun _ => h1, (C85_chebyshev A mode s hn (by omega)).1 r2 fun _ => h2, (C85_chebyshev A mode s hn (by omega)).2 r3 fun _ => h3,
    key, key, key, h1, h2, h3]
  simp only [Option.some.injEq, and_self]

/-- with 1 GiB available, degree one million is built and degree 10^9 aborts; degree 2^62 panics before any request -/
example [Libm] (mode : Overflow) : let A : Allocator := ⟨fun bytes => decide (bytes ≤ 2 ^ 30)⟩
    (∃ r : Rule F64, GaussLegendre.newMachine A mode none 1000000 = .done r ∧ r.degree = 1000000) ∧
    GaussLegendre.newMachine (F := F64) A mode none 1000000000 = .abort ∧
    GaussLegendre.newMachine (F := F64) A mode none (2 ^ 62) = .panic ∧
    GaussLegendre.newMachine (F := F64) A .wrapping none (2 ^ 64 - 1) = .done ⟨[]⟩ := by
  intro A
  obtain ⟨⟨r1, h1, d1⟩, -⟩ := C45_all_other_degrees (F := F64) mode 1000000 (by omega) (by omega)
  obtain ⟨⟨r2, h2, -⟩, -⟩ := C45_all_other_degrees (F := F64) mode 1000000000 (by omega) (by omega)
  obtain ⟨⟨r3, h3, -⟩, -⟩ := C45_all_other_degrees (F := F64) mode (2 ^ 62) (by omega) (by omega)
  refine ⟨⟨r1, ((C85_returned A mode none (by omega) (by omega) r1).1).2 ⟨by omega, by simp [A], h1⟩, d1⟩, ?_, ?_, ?_⟩
  · rw [C85_legendre A mode none (by omega) (by omega) fun _ => h2]
    simp [constructorOutcome, A]
  · rw [C85_legendre A mode none (by omega) (by omega) fun _ => h3]
    simp [constructorOutcome]
  · rw [C85_legendre A .wrapping none (by omega) (by omega) (good := ⟨[]⟩) fun h => absurd rfl h]
    simp [constructorOutcome]

/-- one byte short of what 100 pairs need: both Chebyshev constructors abort -/
example (mode : Overflow) (s : Option Schedule) :
    GaussChebyshevFirstKind.newMachine (F := F) ⟨fun b => b < 1600⟩ mode s 100 = .abort ∧ GaussChebyshevSecondKind.newMachine (F := F) ⟨fun b => b < 1600⟩ mode s 100 = .abort := by
  obtain ⟨-, ⟨r2, h2, -⟩, ⟨r3, h3, -⟩⟩ := C45_all_other_degrees (F := F) mode 100 (by omega) (by omega)
  constructor
  · rw [(C85_chebyshev _ mode s (n := 100) (by omega) (by omega)).1 r2 fun _ => h2]; simp [constructorOutcome]
  · rw [(C85_chebyshev _ mode s (n := 100) (by omega) (by omega)).2 r3 fun _ => h3]; simp [constructorOutcome]

end GaussQuad.Props
