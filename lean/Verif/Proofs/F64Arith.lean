import Verif.Proofs.F64Round
import Verif.Spec.IEEE
import Mathlib.Tactic.Positivity
import Mathlib.Tactic.Ring
import Mathlib.Tactic.Linarith
import Mathlib.Tactic.FieldSimp
import Mathlib.Tactic.NormNum

/-!
# binary64: order, correct rounding, special values
-/

set_option exponentiation.threshold 3000

namespace GaussQuad.F64
open Spec

/-! ### Order -/

theorem val_of_pos {x : F64} (h : x.sign = false) : x.val = magInt x.mag / 2 ^ 1074 := by simp [val, h]
theorem val_of_neg {x : F64} (h : x.sign = true) : x.val = -(magInt x.mag / 2 ^ 1074) := by simp [val, h]; ring

theorem key_lt_iff (x y : F64) : x.key < y.key ↔ x.val < y.val := by
  have hmono : ∀ i j : ℕ, i < j ↔ ((magInt i : ℚ) / 2 ^ 1074 < magInt j / 2 ^ 1074) := by
    intro i j
    rw [div_lt_div_iff_of_pos_right pow1074_pos, Nat.cast_lt, magInt_strictMono.lt_iff_lt]
  have hnn : ∀ i : ℕ, (0 : ℚ) ≤ magInt i / 2 ^ 1074 := fun i => by positivity
  have hpos : ∀ i : ℕ, 0 < i ↔ (0 : ℚ) < magInt i / 2 ^ 1074 := by
    intro i; rw [hmono 0 i, magInt_zero]; simp
  unfold key
  cases hx : x.sign <;> cases hy : y.sign
  · rw [val_of_pos hx, val_of_pos hy, ← hmono]; simp
  · rw [val_of_pos hx, val_of_neg hy]
    have := hnn x.mag; have := hnn y.mag
    simp only [Bool.false_eq_true, if_false, if_true]
    constructor
    · intro h; omega
    · intro h; linarith
  · rw [val_of_neg hx, val_of_pos hy]
    have h1 := hnn x.mag; have h2 := hnn y.mag
    have p1 := hpos x.mag; have p2 := hpos y.mag
    simp only [Bool.false_eq_true, if_false, if_true]
    constructor
    · intro h
      have : 0 < x.mag ∨ 0 < y.mag := by omega
      rcases this with h | h
      · have := p1.1 h; linarith
      · have := p2.1 h; linarith
    · intro h
      by_contra hc
      have e1 : x.mag = 0 := by omega
      have e2 : y.mag = 0 := by omega
      rw [e1, e2, magInt_zero] at h; simp at h
  · rw [val_of_neg hx, val_of_neg hy, neg_lt_neg_iff, ← hmono]
    simp

theorem key_eq_iff (x y : F64) : x.key = y.key ↔ x.val = y.val := by
  constructor
  · intro h
    exact le_antisymm (not_lt.1 (mt (key_lt_iff y x).2 (by omega))) (not_lt.1 (mt (key_lt_iff x y).2 (by omega)))
  · intro h
    by_contra hne
    rcases lt_or_gt_of_ne hne with h' | h'
    · exact absurd ((key_lt_iff _ _).1 h') (by rw [h]; exact lt_irrefl _)
    · exact absurd ((key_lt_iff _ _).1 h') (by rw [h]; exact lt_irrefl _)

theorem isNaN_of_finite {x : F64} (h : x.isFinite = true) : x.isNaN = false := by
  simp only [isFinite, isNaN, decide_eq_true_eq, decide_eq_false_iff_not] at *; omega

theorem isInf_of_finite {x : F64} (h : x.isFinite = true) : x.isInf = false := by
  simp only [isFinite, isInf, decide_eq_true_eq, decide_eq_false_iff_not] at *; omega

theorem ltb_finite {x y : F64} (hx : x.isFinite = true) (hy : y.isFinite = true) : x.ltb y = true ↔ x.val < y.val := by
  simp [ltb, isNaN_of_finite hx, isNaN_of_finite hy, key_lt_iff]

theorem eqb_finite {x y : F64} (hx : x.isFinite = true) (hy : y.isFinite = true) : x.eqb y = true ↔ x.val = y.val := by
  simp [eqb, isNaN_of_finite hx, isNaN_of_finite hy, key_eq_iff]

/-! ### Rounding -/

theorem magInt_pred_infMag : magInt (infMag - 1) = 2 ^ 2098 - 2 ^ 2045 := by
  have : infMag - 1 = 2045 * 2 ^ 52 + (2 ^ 53 - 1) := by decide
  rw [this, magInt_scaled (Or.inr (by norm_num)) (by norm_num)]
  norm_num

theorem overflow_iff (A B : ℕ) (hB : 0 < B) : infMag ≤ roundUnbounded A B ↔ (2 : ℚ) ^ 2098 - 2 ^ 2044 ≤ scaled A B := by
  set K := roundUnbounded A B with hK
  have hi : (magInt infMag : ℚ) = 2 ^ 2098 := by rw [magInt_infMag]; norm_num
  have hp : (magInt (infMag - 1) : ℚ) = 2 ^ 2098 - 2 ^ 2045 := by
    rw [magInt_pred_infMag, Nat.cast_sub (by norm_num)]; norm_num
  have e45 : (2 : ℚ) ^ 2045 = 2 * 2 ^ 2044 := by rw [← pow_succ']
  have h44 : (0 : ℚ) < 2 ^ 2044 := by positivity
  rw [e45] at hp
  have n1 := roundUnbounded_nearest A B hB infMag
  have n2 := (roundUnbounded_nearest A B hB (infMag - 1)).1
  rw [← hK, hi] at n1; rw [← hK, hp] at n2
  generalize (2 : ℚ) ^ 2098 = T at *
  generalize (2 : ℚ) ^ 2044 = U at *
  generalize scaled A B = S at *
  constructor
  · intro hle
    have hKT : T ≤ magInt K := by rw [← hi]; exact_mod_cast magInt_strictMono.monotone hle
    by_contra hS
    push Not at hS
    rw [abs_of_nonpos (by linarith)] at n2
    rcases le_total (T - 2 * U) S with h | h
    · rw [abs_of_nonneg (by linarith)] at n2; linarith
    · rw [abs_of_nonpos (by linarith)] at n2; linarith
  · intro hS
    by_contra hlt
    have hKle : K ≤ infMag - 1 := by omega
    have hKT : (magInt K : ℚ) ≤ T - 2 * U := by rw [← hp]; exact_mod_cast magInt_strictMono.monotone hKle
    obtain ⟨n1, n3⟩ := n1
    rw [abs_of_nonneg (by linarith)] at n1 n3
    rcases le_total T S with h | h
    · rw [abs_of_nonneg (by linarith)] at n1; linarith
    · rw [abs_of_nonpos (by linarith)] at n1 n3
      have e1 : (magInt K : ℚ) = T - 2 * U := by linarith
      have e2 : S = T - U := by linarith
      have hev := n3 (by omega) (by linarith)
      have : K = infMag - 1 := magInt_strictMono.injective (by rw [← hp] at e1; exact_mod_cast e1)
      rw [this] at hev
      exact absurd hev (by decide)

theorem overflow_iff_rat (q : ℚ) :
    infMag ≤ roundUnbounded (q.num.natAbs * 2 ^ 1074) q.den ↔ overflowThreshold ≤ |q| := by
  rw [overflow_iff _ _ q.den_pos, scaled_rat, overflowThreshold]
  have : (2 : ℚ) ^ 2098 - 2 ^ 2044 = (2 ^ 1024 - 2 ^ 970) * 2 ^ 1074 := by
    rw [sub_mul, ← pow_add, ← pow_add]
  rw [this, mul_le_mul_iff_left₀ pow1074_pos]

theorem round_sign {q : ℚ} (hq : q ≠ 0) (s : Bool) : (round q s).sign = decide (q < 0) := by simp [round, hq]

theorem round_mag {q : ℚ} (hq : q ≠ 0) (s : Bool) :
    (round q s).mag = min (roundUnbounded (q.num.natAbs * 2 ^ 1074) q.den) infMag := by simp [round, hq, roundMag]

theorem round_zero (s : Bool) : round 0 s = zero s := by simp [round]

/-- distance of a same-signed float from `q`, in units -/
theorem dist_same_sign {q : ℚ} {y : F64} (h : y.sign = decide (q < 0)) :
    |q - y.val| = |(|q| * 2 ^ 1074) - magInt y.mag| / 2 ^ 1074 := by
  have hp := pow1074_pos
  have e : |q| * 2 ^ 1074 - magInt y.mag = (|q| - magInt y.mag / 2 ^ 1074) * 2 ^ 1074 := by
    field_simp
  rw [e, abs_mul, abs_of_pos hp, mul_div_assoc, div_self hp.ne', mul_one]
  by_cases hq : q < 0
  · rw [val_of_neg (by simpa [hq] using h), abs_of_neg hq, ← abs_neg]; congr 1; ring
  · rw [val_of_pos (by simpa [hq] using h), abs_of_nonneg (not_lt.1 hq)]

theorem dist_opposite_sign {q : ℚ} {y : F64} (h : y.sign ≠ decide (q < 0)) : |q| + |y.val| = |q - y.val| := by
  have hnn : (0 : ℚ) ≤ magInt y.mag / 2 ^ 1074 := by positivity
  rw [abs_val]
  by_cases hq : q < 0
  · rw [val_of_pos (by simpa [hq] using h), abs_of_neg hq, abs_of_neg (by linarith)]; ring
  · rw [val_of_neg (by simpa [hq] using h), abs_of_nonneg (not_lt.1 hq), abs_of_nonneg (by push Not at hq; linarith)]; ring

theorem round_correct {q : ℚ} (hq : q ≠ 0) (s : Bool) : CorrectlyRounded q (round q s) := by
  refine ⟨round_sign hq s, ?_⟩
  set A := q.num.natAbs * 2 ^ 1074 with hA
  set K := roundUnbounded A q.den with hK
  rcases le_or_gt overflowThreshold |q| with h | h
  · left
    refine ⟨h, ?_⟩
    rw [isInf, round_mag hq, decide_eq_true_eq]
    exact min_eq_right ((overflow_iff_rat q).2 h)
  · right
    have hlt : K < infMag := by
      by_contra hc
      exact absurd ((overflow_iff_rat q).1 (not_lt.1 hc)) (not_le.2 h)
    have hmag : (round q s).mag = K := by rw [round_mag hq]; exact min_eq_left hlt.le
    have hdist : |q - (round q s).val| = |(|q| * 2 ^ 1074) - magInt K| / 2 ^ 1074 := by
      rw [dist_same_sign (round_sign hq s), hmag]
    have hp := pow1074_pos
    refine ⟨h, by rw [isFinite, hmag]; simpa using hlt, ?_, ?_⟩
    · intro y _
      rw [hdist]
      by_cases hs : y.sign = decide (q < 0)
      · rw [dist_same_sign hs, div_le_div_iff_of_pos_right hp, ← scaled_rat]
        exact (roundUnbounded_nearest A q.den q.den_pos y.mag).1
      · rw [← dist_opposite_sign hs]
        have h0 := (roundUnbounded_nearest A q.den q.den_pos 0).1
        rw [magInt_zero, scaled_rat, ← hK] at h0
        have e : |(|q| * 2 ^ 1074) - ((0 : ℕ) : ℚ)| = |q| * 2 ^ 1074 := by
          rw [Nat.cast_zero, sub_zero, abs_of_nonneg (by positivity)]
        rw [e] at h0
        have : |(|q| * 2 ^ 1074) - magInt K| / 2 ^ 1074 ≤ |q| := by
          rw [div_le_iff₀ hp]; exact h0
        linarith [abs_nonneg y.val]
    · intro y _ hne heq
      rw [hmag]
      rw [hdist] at heq
      by_cases hs : y.sign = decide (q < 0)
      · rw [dist_same_sign hs, div_left_inj' hp.ne', ← scaled_rat] at heq
        refine (roundUnbounded_nearest A q.den q.den_pos y.mag).2 ?_ heq
        intro hyk
        apply hne
        have hss : y.sign = (round q s).sign := by rw [hs, round_sign hq]
        unfold val
        rw [hss, hmag, hyk]
      · rw [← dist_opposite_sign hs] at heq
        have h0 := (roundUnbounded_nearest A q.den q.den_pos 0)
        rw [magInt_zero, scaled_rat, ← hK] at h0
        have e : |(|q| * 2 ^ 1074) - ((0 : ℕ) : ℚ)| = |q| * 2 ^ 1074 := by
          rw [Nat.cast_zero, sub_zero, abs_of_nonneg (by positivity)]
        rw [e] at h0
        have h1 : |(|q| * 2 ^ 1074) - magInt K| / 2 ^ 1074 ≤ |q| := by
          rw [div_le_iff₀ hp]; exact h0.1
        by_cases hK0 : K = 0
        · rw [hK0]
        · refine h0.2 (Ne.symm hK0) ?_
          have h2 : |(|q| * 2 ^ 1074) - magInt K| / 2 ^ 1074 = |q| := by linarith [abs_nonneg y.val]
          rw [div_eq_iff hp.ne'] at h2
          exact h2

/-- the specification determines the result -/
theorem correctlyRounded_unique {q : ℚ} {r r' : F64} (h : CorrectlyRounded q r) (h' : CorrectlyRounded q r') : r = r' := by
  obtain ⟨hs, h⟩ := h
  obtain ⟨hs', h'⟩ := h'
  have hss : r.sign = r'.sign := by rw [hs, hs']
  have ext : r.mag = r'.mag → r = r' := by
    intro hm; cases r; cases r'; simp_all
  apply ext
  rcases h with ⟨h1, h2⟩ | ⟨h1, h2, h3, h4⟩ <;> rcases h' with ⟨h1', h2'⟩ | ⟨h1', h2', h3', h4'⟩
  · simp only [isInf, decide_eq_true_eq] at h2 h2'; rw [h2, h2']
  · exact absurd h1 (not_le.2 h1')
  · exact absurd h1' (not_le.2 h1)
  · have heq : |q - r.val| = |q - r'.val| := le_antisymm (h3 _ h2') (h3' _ h2)
    by_contra hne
    have hvne : r'.val ≠ r.val := by
      rw [Ne, ← key_eq_iff]; unfold key; rw [hss]
      cases r'.sign <;> simp <;> omega
    have e1 := h4 _ h2' hvne heq
    have e2 := h4' _ h2 (Ne.symm hvne) heq.symm
    -- two equally near even neighbours would have an odd one strictly nearer
    rw [dist_same_sign hs, dist_same_sign hs', div_left_inj' pow1074_pos.ne'] at heq
    have key : ∀ a b : F64, a.sign = decide (q < 0) → a.isFinite = true → b.isFinite = true →
        (∀ y : F64, y.isFinite = true → |q - a.val| ≤ |q - y.val|) → a.mag < b.mag → a.mag % 2 = 0 → b.mag % 2 = 0 →
        |(|q| * 2 ^ 1074) - magInt a.mag| = |(|q| * 2 ^ 1074) - magInt b.mag| → False := by
      intro a b ha haf hbf hmin hab ea eb hd
      have hlt : a.mag + 1 < b.mag := by omega
      have hbl := b.lt_mag
      let c : F64 := ⟨a.sign, a.mag + 1, by omega⟩
      have hc : c.isFinite = true := by
        simp only [isFinite, decide_eq_true_eq] at hbf ⊢
        show a.mag + 1 < infMag
        omega
      have hmc := hmin c hc
      rw [dist_same_sign ha, dist_same_sign (y := c) ha, div_le_div_iff_of_pos_right pow1074_pos] at hmc
      have m1 : (magInt a.mag : ℚ) < magInt c.mag := by exact_mod_cast magInt_strictMono (Nat.lt_succ_self _)
      have m2 : (magInt c.mag : ℚ) < magInt b.mag := by exact_mod_cast magInt_strictMono hlt
      generalize (|q| * 2 ^ 1074) = S at *
      rcases abs_eq_abs.1 hd with h | h
      · linarith
      · have hS : S = (magInt a.mag + magInt b.mag) / 2 := by linarith
        rw [abs_of_nonneg (by linarith)] at hmc
        rcases le_total S (magInt c.mag) with h5 | h5
        · rw [abs_of_nonpos (by linarith)] at hmc; linarith
        · rw [abs_of_nonneg (by linarith)] at hmc; linarith
    rcases lt_or_gt_of_ne hne with h | h
    · exact key r r' hs h2 h2' h3 h e1 e2 heq
    · exact key r' r hs' h2' h2 h3' h e2 e1 heq.symm

theorem round_rounded (q : ℚ) (s : Bool) : RoundedResult q s (round q s) := by
  by_cases hq : q = 0
  · left; rw [hq]; exact ⟨rfl, round_zero s⟩
  · exact Or.inr ⟨hq, round_correct hq s⟩

theorem roundedResult_eq {q : ℚ} {s : Bool} {r : F64} (h : RoundedResult q s r) : r = round q s := by
  rcases h with ⟨hq, h⟩ | ⟨hq, h⟩
  · rw [h, hq, round_zero]
  · exact correctlyRounded_unique h (round_correct hq s)

/-- exactly representable values are not changed -/
theorem round_exact {x : F64} (hx : x.isFinite = true) (h0 : x.val ≠ 0) (s : Bool) : round x.val s = x := by
  have hmag : roundUnbounded (x.val.num.natAbs * 2 ^ 1074) x.val.den = x.mag := by
    apply roundUnbounded_exact _ _ _ x.val.den_pos
    rw [scaled_rat, abs_val, div_mul_cancel₀ _ pow1074_pos.ne']
  have hf : x.mag < infMag := by simpa [isFinite] using hx
  have hs : decide (x.val < 0) = x.sign := by
    have hpos : (0 : ℚ) ≤ magInt x.mag / 2 ^ 1074 := by positivity
    cases hsx : x.sign
    · rw [decide_eq_false_iff_not, val_of_pos hsx]; exact not_lt.2 hpos
    · rw [decide_eq_true_eq]
      rcases lt_or_eq_of_le (show x.val ≤ 0 by rw [val_of_neg hsx]; linarith) with h | h
      · exact h
      · exact absurd h h0
  have m := round_mag h0 s
  have sg := round_sign h0 s
  rw [hmag, min_eq_left hf.le] at m
  rw [hs] at sg
  generalize round x.val s = r at *
  cases r; cases x; simp_all

theorem zero_isFinite (s : Bool) : (zero s).isFinite = true := by simp [zero, isFinite, infMag]

/-! ### Literals -/

theorem val_negOne : (round (-1) false).val = -1 ∧ (round (-1) false).isFinite = true := by
  have h : (⟨true, 1023 * 2 ^ 52, by decide⟩ : F64).val = -1 := by
    rw [val_of_neg rfl]
    have : magInt (1023 * 2 ^ 52) = 2 ^ 1074 := by
      have : 1023 * 2 ^ 52 = 1022 * 2 ^ 52 + 2 ^ 52 := by decide
      rw [this, magInt_scaled (Or.inr le_rfl) (by norm_num), ← pow_add]
    rw [this]; norm_num
  have hf : (⟨true, 1023 * 2 ^ 52, by decide⟩ : F64).isFinite = true := by decide
  have := round_exact hf (by rw [h]; norm_num) false
  rw [h] at this
  rw [this]; exact ⟨h, hf⟩

end GaussQuad.F64
