import Verif.Proofs.F64Special
import Verif.Proofs.Protocol

/-!
# C21: `integrate(a, a, f)` in binary64
-/

set_option exponentiation.threshold 3000

namespace GaussQuad.Props
open Spec F64 FloatOps

/-- rules that take bounds -/
def Bounded {F : Type} : AnyRule F → Prop
  | .hermite _ => False
  | .laguerre _ => False
  | _ => True

/-- the accumulated sum of (weighted) integrand values that each rule multiplies by its width factor -/
def accumulated [Libm] (R : AnyRule F64) (ys : List F64) : F64 :=
  match R with
  | .midpoint _ => ys.foldl (· +ᶠ ·) sumInit
  | .trapezoid _ => (ys.getD 0 sumInit +ᶠ ys.getD 1 sumInit) /ᶠ lit 2.0 +ᶠ (ys.drop 2).foldl (· +ᶠ ·) sumInit
  | .simpson r =>
      let edges := (ys.take (r.degree - 1)).foldl (· +ᶠ ·) sumInit
      let mids := ((ys.drop (r.degree - 1)).take (r.degree - 1)).foldl (· +ᶠ ·) sumInit
      lit 2.0 *ᶠ edges +ᶠ lit 4.0 *ᶠ mids +ᶠ lit 4.0 *ᶠ ys.getD (2 * r.degree - 2) sumInit
          +ᶠ ys.getD (2 * r.degree - 1) sumInit +ᶠ ys.getD (2 * r.degree) sumInit
  | .legendre r => weighted r.nodeWeightPairs ys
  | .chebyshevFirst r => weighted r.nodeWeightPairs ys
  | .chebyshevSecond r => weighted r.nodeWeightPairs ys
  | .jacobi r => weighted r.nodeWeightPairs ys
  | .hermite r => weighted r.nodeWeightPairs ys
  | .laguerre r => weighted r.nodeWeightPairs ys

theorem ofNat_pos_finite [Libm] {n : ℕ} (h0 : 0 < n) (h : n < 2 ^ 32) :
    (FloatOps.ofNat n : F64).isFinite = true ∧ (FloatOps.ofNat n : F64).isZero = false := by
  have hv := val_round_nat (n := n) (by omega) false
  refine ⟨hv.2, ?_⟩
  rw [Bool.eq_false_iff, Ne, isZero_iff]
  show (F64.round (n : ℚ) false).val ≠ 0
  rw [hv.1]; exact_mod_cast h0.ne'

theorem lit_finite [Libm] (q : ℚ) (h : |q| ≤ 100) (h0 : q ≠ 0) : (FloatOps.lit q : F64).isFinite = true := by
  show (F64.round q false).isFinite = true
  rw [round_isFinite_iff]
  refine lt_of_le_of_lt h ?_
  unfold overflowThreshold
  norm_num

theorem width_zero_sum [Libm] {S z : F64} (hz : z.isZero = true) :
    ((z *ᶠ S).isZero = true ↔ S.isFinite = true) ∧ ((z *ᶠ S).isNaN = true ↔ S.isFinite = false) ∧
    ((S *ᶠ z).isZero = true ↔ S.isFinite = true) ∧ ((S *ᶠ z).isNaN = true ↔ S.isFinite = false) := by
  show ((F64.mul z S).isZero = true ↔ S.isFinite = true) ∧ ((F64.mul z S).isNaN = true ↔ S.isFinite = false) ∧
    ((F64.mul S z).isZero = true ↔ S.isFinite = true) ∧ ((F64.mul S z).isNaN = true ↔ S.isFinite = false)
  rw [zero_of_isZero hz]
  by_cases hS : S.isFinite = true
  · rw [zero_mul_finite _ hS, mul_zero_finite _ hS]
    simp [hS, isZero_zero, isNaN_of_finite (zero_isFinite _)]
  · have hS' : S.isFinite = false := by simpa using hS
    rw [zero_mul_nonfinite _ hS', mul_zero_nonfinite _ hS']
    have : nan.isZero = false := by decide
    simp [hS', this, nan_isNaN]

/-- C21: on an empty interval the result is a signed zero exactly when the accumulated sum is finite, and NaN
exactly when it is not. -/
theorem C21_empty_interval [Libm] (R : AnyRule F64) (hR : Bounded R) (a : F64) (ha : a.isFinite = true) (f : F64 → F64) :
    ((R.value a a f).isZero = true ↔ (accumulated R ((points a a R).map f)).isFinite = true) ∧
    ((R.value a a f).isNaN = true ↔ (accumulated R ((points a a R).map f)).isFinite = false) := by
  rw [value_eq]
  have hsub : (a -ᶠ a) = F64.zero false := F64.sub_self ha
  have hdiv : ∀ r : NodeRule, ((a -ᶠ a) /ᶠ FloatOps.ofNat r.degree : F64).isZero = true := by
    intro r
    rw [hsub]
    have h := ofNat_pos_finite r.pos r.lt
    show (F64.div (F64.zero false) _).isZero = true
    rw [F64.zero_div _ h.1 h.2]; exact isZero_zero _
  have hhalf : (lit 0.5 *ᶠ (a -ᶠ a) : F64).isZero = true := by
    rw [hsub]
    show (F64.mul _ (F64.zero false)).isZero = true
    rw [mul_zero_finite _ (lit_finite _ (by norm_num) (by norm_num))]; exact isZero_zero _
  have hsix : ∀ z : F64, z.isZero = true → (z /ᶠ lit 6.0 : F64).isZero = true := by
    intro z hz
    rw [zero_of_isZero hz]
    show (F64.div (F64.zero z.sign) (F64.round 6.0 false)).isZero = true
    have e : ((6.0 : ℚ)) = ((6 : ℕ) : ℚ) := by norm_num
    have hv := val_round_nat (n := 6) (by norm_num) false
    rw [e, F64.zero_div _ hv.2 (by rw [Bool.eq_false_iff, Ne, isZero_iff, hv.1]; norm_num)]
    exact isZero_zero _
  cases R with
  | midpoint r => exact ⟨(width_zero_sum (hdiv r)).2.2.1, (width_zero_sum (hdiv r)).2.2.2⟩
  | trapezoid r => exact ⟨(width_zero_sum (hdiv r)).2.2.1, (width_zero_sum (hdiv r)).2.2.2⟩
  | simpson r => exact ⟨(width_zero_sum (hsix _ (hdiv r))).1, (width_zero_sum (hsix _ (hdiv r))).2.1⟩
  | legendre r => exact ⟨(width_zero_sum hhalf).1, (width_zero_sum hhalf).2.1⟩
  | chebyshevFirst r => exact ⟨(width_zero_sum hhalf).2.2.1, (width_zero_sum hhalf).2.2.2⟩
  | chebyshevSecond r => exact ⟨(width_zero_sum hhalf).2.2.1, (width_zero_sum hhalf).2.2.2⟩
  | jacobi r => exact ⟨(width_zero_sum hhalf).1, (width_zero_sum hhalf).2.1⟩
  | hermite r => exact hR.elim
  | laguerre r => exact hR.elim

/-- a one-panel midpoint rule on the empty interval `[0, 0]` with a NaN-valued integrand gives NaN -/
example [Libm] : ((AnyRule.midpoint ⟨1, by decide, by decide⟩ : AnyRule F64).value (F64.zero false) (F64.zero false)
    (fun _ => F64.nan)).isNaN = true := by
  rw [(C21_empty_interval (.midpoint ⟨1, by decide, by decide⟩) trivial _ (zero_isFinite _) _).2]
  show (F64.add (F64.zero true) F64.nan).isFinite = false
  decide

end GaussQuad.Props
