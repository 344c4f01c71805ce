import Verif.Proofs.F64Special

/-! # binary64: error of one rounded operation, monotonicity -/

set_option exponentiation.threshold 3000

namespace GaussQuad.F64
open Spec

/-- unit roundoff -/
def u : ℚ := 1 / 2 ^ 53

theorem u_pos : 0 < u := by unfold u; positivity

/-- error of a finite rounded value, in the two regimes -/
theorem round_error_units {q : ℚ} {s : Bool} (hf : (round q s).isFinite = true) (hq : q ≠ 0) :
    ∃ (K e : ℕ), |q - (round q s).val| * 2 ^ 1074 = |(|q| * 2 ^ 1074) - K| ∧
      (e = 0 ∨ (2 : ℚ) ^ (52 + e) ≤ |q| * 2 ^ 1074) ∧ 2 * |(|q| * 2 ^ 1074) - K| ≤ 2 ^ e := by
  obtain ⟨e, he, herr⟩ := half_ulp (q.num.natAbs * 2 ^ 1074) q.den q.den_pos
  rw [scaled_rat] at he herr
  refine ⟨_, e, ?_, he, herr⟩
  have hlt := (round_isFinite_iff q s).1 hf
  have hK : roundUnbounded (q.num.natAbs * 2 ^ 1074) q.den < infMag := by
    by_contra hc
    exact absurd ((overflow_iff_rat q).1 (not_lt.1 hc)) (not_le.2 hlt)
  rw [dist_same_sign (round_sign hq s), round_mag hq, min_eq_left hK.le, div_mul_cancel₀ _ pow1074_pos.ne']

/-- relative error of a rounded value in the normal range -/
theorem round_error_normal {q : ℚ} {s : Bool} (hf : (round q s).isFinite = true) (hn : 1 / 2 ^ 1022 ≤ |q|) :
    |(round q s).val - q| ≤ u * |q| := by
  by_cases hq : q = 0
  · rw [hq, abs_zero] at hn
    exact absurd hn (not_le.2 (by positivity))
  obtain ⟨K, e, h1, h2, h3⟩ := round_error_units hf hq
  have hS : (2 : ℚ) ^ 52 ≤ |q| * 2 ^ 1074 := by
    have : (2 : ℚ) ^ 1074 = 2 ^ 1022 * 2 ^ 52 := by rw [← pow_add]
    rw [this, ← mul_assoc]
    have h : 1 ≤ |q| * 2 ^ 1022 := by
      rw [div_le_iff₀ (by positivity)] at hn; exact hn
    nlinarith [show (0 : ℚ) < 2 ^ 52 by positivity]
  have hS' : (2 : ℚ) ^ (52 + e) ≤ |q| * 2 ^ 1074 := by
    rcases h2 with rfl | h2
    · simpa using hS
    · exact h2
  rw [abs_sub_comm]
  have hp := pow1074_pos
  rw [← mul_le_mul_iff_left₀ hp, h1]
  have e1 : (2 : ℚ) ^ (52 + e) = 2 ^ 52 * 2 ^ e := by rw [pow_add]
  rw [e1] at hS'
  have : u * |q| * 2 ^ 1074 = (|q| * 2 ^ 1074) / 2 ^ 53 := by unfold u; ring
  rw [this, le_div_iff₀ (by positivity)]
  have e2 : (2 : ℚ) ^ 53 = 2 * 2 ^ 52 := by rw [← pow_succ']
  rw [e2]
  nlinarith [show (0 : ℚ) < 2 ^ 52 by positivity]

/-- sums of two floats have no underflow error -/
theorem add_error {x y : F64} (hf : (add x y).isFinite = true) :
    x.isFinite = true ∧ y.isFinite = true ∧ |(add x y).val - (x.val + y.val)| ≤ u * |x.val + y.val| := by
  have hx : x.isFinite = true := by
    by_contra hx
    have hx' : x.isFinite = false := by simpa using hx
    rcases trichotomy x with h | h | h
    · exact hx h
    · unfold add at hf
      rw [not_nan_of_inf h, h] at hf
      cases hy : y.isNaN
      · rw [hy] at hf
        simp only [Bool.or_self, Bool.false_eq_true, if_false, if_true] at hf
        split at hf
        · exact absurd hf (by decide)
        · exact hx hf
      · rw [hy] at hf; exact absurd hf (by simp; decide)
    · rw [add_nan_left h] at hf; exact absurd hf (by decide)
  have hy : y.isFinite = true := by
    by_contra hy
    rcases trichotomy y with h | h | h
    · exact hy h
    · unfold add at hf
      rw [isNaN_of_finite hx, isInf_of_finite hx, not_nan_of_inf h, h] at hf
      exact hy (by simpa using hf)
    · rw [add_nan_right h] at hf; exact absurd hf (by decide)
  refine ⟨hx, hy, ?_⟩
  rw [add_finite hx hy] at hf ⊢
  set q := x.val + y.val with hqdef
  by_cases hq : q = 0
  · rw [hq, round_zero, val_zero]; simp
  obtain ⟨K, e, h1, h2, h3⟩ := round_error_units hf hq
  have hp := pow1074_pos
  rw [abs_sub_comm, ← mul_le_mul_iff_left₀ hp, h1]
  have : u * |q| * 2 ^ 1074 = (|q| * 2 ^ 1074) / 2 ^ 53 := by unfold u; ring
  rw [this]
  rcases Nat.eq_zero_or_pos e with rfl | he
  · -- the sum is an integer number of units
    obtain ⟨N, hN⟩ : ∃ N : ℤ, q * 2 ^ 1074 = N := by
      refine ⟨(if x.sign then -(magInt x.mag : ℤ) else magInt x.mag) + (if y.sign then -(magInt y.mag : ℤ) else magInt y.mag), ?_⟩
      rw [hqdef, val_eq, val_eq]
      push_cast
      have : ∀ (c : Bool) (m : ℕ), ((if c then -1 else 1 : ℚ) * ((m : ℚ) / 2 ^ 1074)) * 2 ^ 1074 = if c then -(m : ℚ) else m := by
        intro c m
        rw [mul_assoc, div_mul_cancel₀ _ hp.ne']; cases c <;> simp
      rw [add_mul, this, this]
    have hN' : |q| * 2 ^ 1074 = (|N| : ℤ) := by
      rw [← abs_of_pos hp, ← abs_mul, hN, Int.cast_abs]
    rw [hN'] at h3 ⊢
    have h4 : |((|N| - (K : ℤ) : ℤ) : ℚ)| < 1 := by push_cast at h3 ⊢; linarith
    rw [← Int.cast_abs] at h4
    have h5 : |(|N| - (K : ℤ))| < 1 := by exact_mod_cast h4
    have h6 : |N| - (K : ℤ) = 0 := by rw [Int.abs_lt_one_iff] at h5; exact h5
    have h7 : ((|N| : ℤ) : ℚ) - (K : ℚ) = 0 := by exact_mod_cast h6
    rw [h7, abs_zero]; positivity
  · have hS' : (2 : ℚ) ^ (52 + e) ≤ |q| * 2 ^ 1074 := by
      rcases h2 with h2 | h2
      · omega
      · exact h2
    rw [pow_add] at hS'
    rw [le_div_iff₀ (by positivity)]
    have e2 : (2 : ℚ) ^ 53 = 2 * 2 ^ 52 := by rw [← pow_succ']
    rw [e2]
    nlinarith [show (0 : ℚ) < 2 ^ 52 by positivity]

/-- rounding never crosses a float -/
theorem round_le {q : ℚ} {s : Bool} (hf : (round q s).isFinite = true) {b : F64} (hb : b.isFinite = true) (h : q ≤ b.val) :
    (round q s).val ≤ b.val := by
  by_cases hq : q = 0
  · rw [hq, round_zero, val_zero]; rwa [hq] at h
  rcases round_correct hq s with ⟨-, ⟨h1, h2⟩ | ⟨h1, h2, h3, -⟩⟩
  · rw [isInf_of_finite hf] at h2; exact absurd h2 (by simp)
  · by_contra hlt
    push Not at hlt
    have := h3 b hb
    rw [abs_of_nonpos (by linarith), abs_of_nonpos (by linarith)] at this
    linarith

theorem le_round {q : ℚ} {s : Bool} (hf : (round q s).isFinite = true) {b : F64} (hb : b.isFinite = true) (h : b.val ≤ q) :
    b.val ≤ (round q s).val := by
  by_cases hq : q = 0
  · rw [hq, round_zero, val_zero]; rwa [hq] at h
  rcases round_correct hq s with ⟨-, ⟨h1, h2⟩ | ⟨h1, h2, h3, -⟩⟩
  · rw [isInf_of_finite hf] at h2; exact absurd h2 (by simp)
  · by_contra hlt
    push Not at hlt
    have := h3 b hb
    rw [abs_of_nonneg (by linarith), abs_of_nonneg (by linarith)] at this
    linarith

/-- a value between two finite floats rounds to a finite float -/
theorem val_lt_threshold {b : F64} (hb : b.isFinite = true) : |b.val| < overflowThreshold := by
  rw [abs_val, div_lt_iff₀ pow1074_pos]
  have h1 : magInt b.mag ≤ magInt (infMag - 1) := magInt_strictMono.monotone (by
    simp only [isFinite, decide_eq_true_eq] at hb; omega)
  rw [magInt_pred_infMag] at h1
  have h2 : (magInt b.mag : ℚ) ≤ 2 ^ 2098 - 2 ^ 2045 := by
    calc (magInt b.mag : ℚ) ≤ ((2 ^ 2098 - 2 ^ 2045 : ℕ) : ℚ) := by exact_mod_cast h1
      _ = _ := by rw [Nat.cast_sub (by norm_num)]; norm_num
  refine lt_of_le_of_lt h2 ?_
  unfold overflowThreshold
  rw [sub_mul, ← pow_add, ← pow_add]
  have : (2 : ℚ) ^ 2045 = 2 * 2 ^ 2044 := by rw [← pow_succ']
  rw [this]
  have : (0 : ℚ) < 2 ^ 2044 := by positivity
  norm_num only [Nat.reduceAdd]

theorem round_between {q : ℚ} {s : Bool} {a b : F64} (ha : a.isFinite = true) (hb : b.isFinite = true)
    (h1 : a.val ≤ q) (h2 : q ≤ b.val) :
    (round q s).isFinite = true ∧ a.val ≤ (round q s).val ∧ (round q s).val ≤ b.val := by
  have hf : (round q s).isFinite = true := by
    rw [round_isFinite_iff, abs_lt]
    have ha' := abs_lt.1 (val_lt_threshold ha)
    have hb' := abs_lt.1 (val_lt_threshold hb)
    constructor <;> linarith
  exact ⟨hf, le_round hf ha h1, round_le hf hb h2⟩

end GaussQuad.F64
