import Verif.Proofs.F64Special
import Verif.Props.GolubWelschStructure

/-!
# C35 (refutation): NaN weights of Gauss-Jacobi when `alpha + beta == -1`
-/

set_option exponentiation.threshold 3000

namespace GaussQuad.Props
open F64 FloatOps

/-- What is assumed of the math backend: `sin(+0.0)` is a zero (or NaN).  std and libm both return `+0.0`. -/
def SinOfZero [L : Libm] : Prop := (L.sin (F64.zero false)).isZero = true ∨ (L.sin (F64.zero false)).isNaN = true

theorem gamma_zero [L : Libm] (h : SinOfZero) : (gamma (F64.zero false)).isInf = true ∨ (gamma (F64.zero false)).isNaN = true := by
  unfold gamma
  have hlt : (FloatOps.lt (F64.zero false) (lit 0.5 : F64)) = true := by
    show F64.ltb (F64.zero false) (F64.round 0.5 false) = true
    decide +kernel
  rw [if_pos hlt]
  have hpi : (FloatOps.pi *ᶠ F64.zero false : F64) = F64.zero false := by
    show F64.mul (F64.ofBits 0x400921FB54442D18) (F64.zero false) = _
    rw [mul_zero_finite _ (by decide)]
    decide
  rw [hpi]
  apply div_by_zeroOrNaN
  apply mul_zeroOrNaN
  apply mul_zeroOrNaN
  apply mul_zeroOrNaN
  exact h

/-- C40: at its pole the binary64 `gamma` returns no number -/
theorem C40_pole_binary64 [L : Libm] (h : SinOfZero) : (gamma (F64.zero false)).isFinite = false := by
  rcases gamma_zero h with h | h <;> simp only [F64.isInf, F64.isNaN, F64.isFinite, decide_eq_true_eq, decide_eq_false_iff_not] at * <;> omega

theorem weightScale_nan [L : Libm] (h : SinOfZero) (α β : F64) (hfin : (F64.add α β).isFinite = true)
    (hsum : (F64.add α β).val = -1) : GaussJacobi.weightScale α β = F64.nan := by
  have h1 : (α +ᶠ β +ᶠ lit 1.0 : F64) = F64.zero false := by
    show F64.add (F64.add α β) (F64.round 1.0 false) = _
    have e : (1.0 : ℚ) = ((1 : ℕ) : ℚ) := by norm_num
    have hv := val_round_nat (n := 1) (by norm_num) false
    rw [e, add_finite hfin hv.2, hsum, hv.1]
    have hs : (F64.round ((1 : ℕ) : ℚ) false).sign = false := by
      rw [round_sign (by norm_num)]; simp
    rw [hs, Bool.and_false]
    norm_num [round_zero]
  unfold GaussJacobi.weightScale
  rw [h1]
  show F64.div (F64.div _ _) _ = _
  exact zeroOrNaN_div_zero (div_by_infOrNaN (gamma_zero h)) (isZero_zero _)

/-- C35 is false: for every degree at least 2, every eigen-solver and every pair with `alpha + beta == -1.0`
(in IEEE arithmetic) other than `(-0.5, -0.5)`, every weight of the rule is NaN. -/
theorem C35_nan_weights [L : Libm] (h : SinOfZero) (mode : Overflow) (ext : Externals F64) (n : ℕ) (hn : 2 ≤ n)
    (α β : FiniteAboveNegOne F64) (hfin : (α.get +ᶠ β.get).isFinite = true) (hsum : (α.get +ᶠ β.get).val = -1)
    (hne : ¬ (feq α.get (lit (-0.5)) = true ∧ feq β.get (lit (-0.5)) = true)) :
    ∃ r, GaussJacobi.new mode ext n α β = some r ∧ r.degree = n ∧ ∀ p ∈ r.asNodeWeightPairs, p.2.isNaN = true := by
  have notBoth : ∀ q : ℚ, 0 ≤ q → |q| < Spec.overflowThreshold → ¬ (feq α.get (lit q) = true ∧ feq β.get (lit q) = true) := by
    rintro q hq hqo ⟨ha, hb⟩
    have hqf : (F64.round q false).isFinite = true := (round_isFinite_iff q false).2 hqo
    have fin_of : ∀ x : F64, F64.eqb x (F64.round q false) = true → x.isFinite = true ∧ 0 ≤ x.val := by
      intro x hx
      have hx' := hx
      unfold F64.eqb at hx
      simp only [Bool.and_eq_true, Bool.not_eq_true', decide_eq_true_eq] at hx
      obtain ⟨⟨h1, h2⟩, h3⟩ := hx
      have hmag : x.mag = (F64.round q false).mag := by
        unfold key at h3
        split at h3 <;> split at h3 <;> omega
      have hxf : x.isFinite = true := by
        unfold F64.isFinite at hqf ⊢; rwa [hmag]
      refine ⟨hxf, ?_⟩
      rw [(eqb_finite hxf hqf).1 hx']
      by_cases h0 : q = 0
      · rw [h0, round_zero, val_zero]
      · rw [val_of_pos (by rw [round_sign h0]; simpa using hq)]; positivity
    obtain ⟨hα1, hα2⟩ := fin_of _ ha
    obtain ⟨hβ1, hβ2⟩ := fin_of _ hb
    have hadd : (α.get +ᶠ β.get) = F64.round (α.get.val + β.get.val) (α.get.sign && β.get.sign) := add_finite hα1 hβ1
    by_cases h0 : α.get.val + β.get.val = 0
    · rw [hadd, h0, round_zero, val_zero] at hsum; norm_num at hsum
    · have hs : (α.get +ᶠ β.get).sign = false := by
        rw [hadd, round_sign h0]; simp; linarith
      rw [val_of_pos hs] at hsum
      have : (0 : ℚ) ≤ magInt (α.get +ᶠ β.get).mag / 2 ^ 1074 := by positivity
      rw [hsum] at this; norm_num at this
  have thr : (1 : ℚ) < Spec.overflowThreshold := by unfold Spec.overflowThreshold; norm_num
  have h0 := notBoth 0.0 (by norm_num) (by norm_num; linarith)
  have h5 := notBoth 0.5 (by norm_num) (by refine lt_trans ?_ thr; norm_num [abs_of_pos])
  have hgen := (C39_no_delegation mode ext n α β h0 hne h5).1 (by omega)
  rw [hgen]
  obtain ⟨M, pairs, -, hgw, hperm⟩ := C13_pairs_kept ext (show 0 < n by omega) (GaussJacobi.diag α.get β.get)
    (GaussJacobi.offDiag α.get β.get) (GaussJacobi.weightScale α.get β.get)
  rw [weightScale_nan h α.get β.get hfin hsum] at hgw hperm
  have hnan : ∀ w ∈ pairs.map (·.2), w.isNaN = true := by
    intro w hw
    obtain ⟨p, hp, rfl⟩ := List.mem_map.1 hw
    obtain ⟨i, rfl⟩ := List.mem_ofFn.1 (hperm.mem_iff.1 hp)
    show (F64.mul _ F64.nan).isNaN = true
    rw [mul_nan_right nan_isNaN]; exact nan_isNaN
  have hlen : pairs.length = n := by rw [hperm.length_eq]; simp
  obtain ⟨l', hl', hlen'⟩ := fixMiddle_some (F := F64) (show 0 < n by omega) hlen
  have hw' : l'.map (·.2) = pairs.map (·.2) := by
    unfold GaussJacobi.fixMiddle at hl'
    split at hl'
    · split at hl'
      · rename_i p hp
        injection hl' with hl'
        rw [← hl', List.map_set]
        apply List.ext_getElem?
        intro i
        rw [List.getElem?_set]
        split
        · rename_i h; subst h; simp [hp]
          exact List.getElem?_eq_some_iff.1 hp |>.1
        · rfl
      · exact absurd hl' (by simp)
    · injection hl' with hl'; rw [hl']
  refine ⟨{ nodeWeightPairs := l', alpha := α, beta := β }, ?_, hlen', ?_⟩
  · unfold GaussJacobi.newGeneral
    rw [weightScale_nan h α.get β.get hfin hsum, hgw]
    simp [hl']
  · intro p hp
    apply hnan
    rw [← hw']
    exact List.mem_map_of_mem hp

/-- a valid parameter pair that triggers it: `alpha = -0.25`, `beta = -0.75`, for any backend and any degree from 2 -/
theorem C35_refuted [L : Libm] (h : SinOfZero) (mode : Overflow) (ext : Externals F64) (n : ℕ) (hn : 2 ≤ n) :
    ∃ α β : FiniteAboveNegOne F64, FiniteAboveNegOne.new (lit (-0.25)) = some α ∧ FiniteAboveNegOne.new (lit (-0.75)) = some β ∧
      ∃ r, GaussJacobi.new mode ext n α β = some r ∧ ∀ p ∈ r.asNodeWeightPairs, p.2.isFinite = false := by
  have hα : FiniteAboveNegOne.new (lit (-0.25) : F64) = some ⟨lit (-0.25)⟩ := by
    unfold FiniteAboveNegOne.new
    rw [if_pos]
    show (F64.ltb (F64.round (-1.0) false) (F64.round (-0.25) false) && F64.isFinite (F64.round (-0.25) false)) = true
    decide +kernel
  have hβ : FiniteAboveNegOne.new (lit (-0.75) : F64) = some ⟨lit (-0.75)⟩ := by
    unfold FiniteAboveNegOne.new
    rw [if_pos]
    show (F64.ltb (F64.round (-1.0) false) (F64.round (-0.75) false) && F64.isFinite (F64.round (-0.75) false)) = true
    decide +kernel
  refine ⟨_, _, hα, hβ, ?_⟩
  have hs : F64.add (F64.round (-0.25) false) (F64.round (-0.75) false) = F64.round (-1) false := by decide +kernel
  have hsum : ((⟨lit (-0.25)⟩ : FiniteAboveNegOne F64).get +ᶠ (⟨lit (-0.75)⟩ : FiniteAboveNegOne F64).get : F64) = F64.round (-1) false := hs
  obtain ⟨r, hr, -, hp⟩ := C35_nan_weights h mode ext n hn ⟨lit (-0.25)⟩ ⟨lit (-0.75)⟩
    (by rw [hsum]; exact val_negOne.2) (by rw [hsum]; exact val_negOne.1)
    (by
      rintro ⟨h1, -⟩
      change F64.eqb (F64.round (-0.25) false) (F64.round (-0.5) false) = true at h1
      revert h1
      decide +kernel)
  exact ⟨r, hr, fun p hpr => not_finite_of_nan (hp p hpr)⟩

/-- a backend satisfying the assumption -/
example : ∃ L : Libm, @SinOfZero L := ⟨⟨id, id, fun x _ => x, id⟩, Or.inl (isZero_zero _)⟩

/-- a backend with sin x = x -/
example : (@gamma F64 (@f64Ops ⟨id, id, fun x _ => x, id⟩) (F64.zero false)).isFinite = false :=
  @C40_pole_binary64 ⟨id, id, fun x _ => x, id⟩ (Or.inl (isZero_zero _))

/-- parameters `-0.25` and `-0.75` with eight nodes -/
example [L : Libm] (h : SinOfZero) (ext : Externals F64) : ∃ α β r, FiniteAboveNegOne.new (lit (-0.25) : F64) = some α ∧ FiniteAboveNegOne.new (lit (-0.75)) = some β ∧
    GaussJacobi.new .checked ext 8 α β = some r ∧ ∀ p ∈ r.asNodeWeightPairs, p.2.isFinite = false :=
  let ⟨α, β, h1, h2, r, h3, h4⟩ := C35_refuted h .checked ext 8 (by norm_num)
  ⟨α, β, r, h1, h2, h3, h4⟩

/-- the same for `-0.125` and `-0.875` -/
example [L : Libm] (h : SinOfZero) (ext : Externals F64) : ∃ r, GaussJacobi.new .checked ext 8 ⟨F64.round (-1 / 8) false⟩ ⟨F64.round (-7 / 8) false⟩ = some r ∧
    ∀ p ∈ r.asNodeWeightPairs, p.2.isNaN = true := by
  obtain ⟨r, h1, -, h2⟩ := C35_nan_weights h .checked ext 8 (by norm_num) ⟨F64.round (-1 / 8) false⟩ ⟨F64.round (-7 / 8) false⟩
    (by show (F64.add (F64.round (-1 / 8) false) (F64.round (-7 / 8) false)).isFinite = true; decide +kernel)
    (by show (F64.add (F64.round (-1 / 8) false) (F64.round (-7 / 8) false)).val = -1; decide +kernel)
    (by show ¬ (F64.eqb (F64.round (-1 / 8) false) (F64.round (-0.5) false) = true ∧ F64.eqb (F64.round (-7 / 8) false) (F64.round (-0.5) false) = true); decide +kernel)
  exact ⟨r, h1, h2⟩

end GaussQuad.Props
