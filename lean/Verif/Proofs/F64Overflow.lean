import Verif.Spec.Overflow
import Verif.Proofs.F64Special
import Verif.Proofs.F64Laguerre
import Verif.Proofs.TrigExists

/-!
# binary64: the gamma function and the scale of the Jacobi weights beyond the range
-/

set_option exponentiation.threshold 6000

namespace GaussQuad.F64
open FloatOps Spec

/-! ## arithmetic with values that are not finite -/

theorem inf_of_not_finite {x : F64} (h : x.isFinite = false) : x.isInf = true ∨ x.isNaN = true := by
  rcases trichotomy x with h1 | h1 | h1
  · rw [h] at h1; exact absurd h1 (by simp)
  · exact .inl h1
  · exact .inr h1

theorem inf_isInf (s : Bool) : (inf s).isInf = true := by simp [inf, isInf]

theorem mul_not_finite_left {x y : F64} (h : x.isFinite = false) : (mul x y).isFinite = false := by
  rcases inf_of_not_finite h with h1 | h1
  · unfold mul
    rw [not_nan_of_inf h1, h1]
    cases hy : y.isNaN
    · simp only [Bool.or_self, Bool.false_eq_true, if_false, if_true]
      split
      · exact not_finite_of_nan nan_isNaN
      · exact not_finite_of_inf (inf_isInf _)
    · exact not_finite_of_nan nan_isNaN
  · rw [mul_nan_left h1]; exact not_finite_of_nan nan_isNaN

theorem mul_not_finite_right {x y : F64} (h : y.isFinite = false) : (mul x y).isFinite = false := by
  by_cases hx : x.isFinite = false
  · exact mul_not_finite_left hx
  have hx' : x.isFinite = true := by simpa using hx
  rcases inf_of_not_finite h with h1 | h1
  · unfold mul
    rw [isNaN_of_finite hx', isInf_of_finite hx', not_nan_of_inf h1, h1]
    simp only [Bool.or_self, Bool.false_eq_true, if_false, if_true]
    split
    · exact not_finite_of_nan nan_isNaN
    · exact not_finite_of_inf (inf_isInf _)
  · rw [mul_nan_right h1]; exact not_finite_of_nan nan_isNaN

theorem div_not_finite_left {x y : F64} (h : x.isFinite = false) : (div x y).isFinite = false := by
  rcases inf_of_not_finite h with h1 | h1
  · unfold div
    rw [not_nan_of_inf h1, h1]
    cases hy : y.isNaN
    · simp only [Bool.or_self, Bool.false_eq_true, if_false, if_true]
      split
      · exact not_finite_of_nan nan_isNaN
      · exact not_finite_of_inf (inf_isInf _)
    · exact not_finite_of_nan nan_isNaN
  · rw [div_nan_left h1]; exact not_finite_of_nan nan_isNaN

theorem div_not_finite_inf {x y : F64} (h : x.isFinite = false) (hy : y.isInf = true) : div x y = nan := by
  rcases inf_of_not_finite h with h1 | h1
  · unfold div
    rw [not_nan_of_inf h1, h1, not_nan_of_inf hy, hy]; rfl
  · exact div_nan_left h1

theorem div_finite_inf {x y : F64} (h : x.isFinite = true) (hy : y.isInf = true) : (div x y).isZero = true := by
  unfold div
  rw [isNaN_of_finite h, isInf_of_finite h, not_nan_of_inf hy, hy]
  exact isZero_zero _

theorem mul_pos_inf {x y : F64} (h : x.isFinite = true) (h0 : 0 < x.val) (hy : y.isInf = true) (hs : y.sign = false) :
    (mul x y).isInf = true ∧ (mul x y).sign = false := by
  have hz : x.isZero = false := by
    cases hx : x.isZero
    · rfl
    · rw [isZero_iff] at hx; rw [hx] at h0; exact absurd h0 (lt_irrefl 0)
  have hxs : x.sign = false := by
    cases hx : x.sign
    · rfl
    · rw [val_of_neg hx] at h0
      have : (0 : ℚ) ≤ magInt x.mag / 2 ^ 1074 := by positivity
      linarith
  unfold mul
  rw [isNaN_of_finite h, isInf_of_finite h, not_nan_of_inf hy, hy, hz, hxs, hs]
  exact ⟨inf_isInf _, rfl⟩

theorem rv_pos_val {x : F64} (h : 0 < x.rv) : 0 < x.val := by unfold rv at h; exact_mod_cast h

/-! ## the product in the numerator of the Jacobi scale -/

/-- a product of finite values up to one rounding, wherever it is finite -/
theorem mul_between {x y : F64} {r : ℝ} (hx : x.isFinite = true) (hy : y.isFinite = true) (h0 : 1 / 100 ≤ r) (hr : x.rv * y.rv = r) :
    ((mul x y).isFinite = true ↔ r < (overflowThreshold : ℝ)) ∧ ((mul x y).isFinite = true → |(mul x y).rv - r| ≤ U * r) := by
  have e : ((x.val * y.val : ℚ) : ℝ) = r := by rw [← hr]; unfold rv; push_cast; rfl
  have hr0 : 0 ≤ r := le_trans (by norm_num) h0
  have hq0 : 0 ≤ x.val * y.val := by
    have : (0 : ℝ) ≤ ((x.val * y.val : ℚ) : ℝ) := by rw [e]; exact hr0
    exact_mod_cast this
  rw [mul_finite hx hy, round_isFinite_iff, abs_of_nonneg hq0]
  constructor
  · rw [← e]; exact_mod_cast Iff.rfl
  · intro hf
    have hn : (1 / 2 ^ 1022 : ℚ) ≤ |x.val * y.val| := by
      rw [abs_of_nonneg hq0]
      have : ((1 / 2 ^ 1022 : ℚ) : ℝ) ≤ ((x.val * y.val : ℚ) : ℝ) := by
        rw [e]; push_cast; refine le_trans ?_ h0
        rw [div_le_div_iff₀ (by positivity) (by norm_num)]; norm_num
      exact_mod_cast this
    have key := round_error_normal (s := x.sign != y.sign) ((round_isFinite_iff _ _).2 (by rwa [abs_of_nonneg hq0])) hn
    rw [abs_of_nonneg hq0] at key
    have : ((|(round (x.val * y.val) (x.sign != y.sign)).val - x.val * y.val| : ℚ) : ℝ) ≤ ((u * (x.val * y.val) : ℚ) : ℝ) := by exact_mod_cast key
    rw [← U_cast, ← e]
    push_cast at this ⊢
    simpa [rv] using this

theorem threshold_cast : (overflowThreshold : ℝ) = 2 ^ 1024 - 2 ^ 970 := by unfold overflowThreshold; push_cast; norm_num

/-- bounds of a value with a relative error of 1/1000 -/
theorem Near.mille {x : F64} {r : ℝ} (h : Near x r (1 / 1000 * r)) : 0.999 * r ≤ x.rv ∧ x.rv ≤ 1.001 * r := by
  have := _root_.abs_le.1 h.2
  constructor <;> linarith

theorem prod_bounds {x y a b c d : ℝ} (ha : 0 ≤ a) (hc : 0 ≤ c) (h1 : a ≤ x) (h2 : x ≤ b) (h3 : c ≤ y) (h4 : y ≤ d) : a * c ≤ x * y ∧ x * y ≤ b * d :=
  ⟨mul_le_mul h1 h3 hc (ha.trans h1), mul_le_mul h2 h4 (hc.trans h3) (ha.trans (h1.trans h2))⟩

section
variable {p g1 g2 : F64} {P G1 G2 : ℝ}

theorem num_overflow (hp : Near p P (1 / 1000 * P)) (h1 : Near g1 G1 (1 / 1000 * G1)) (h2 : Near g2 G2 (1 / 1000 * G2))
    (p0 : 1 / 2 ≤ P) (p1 : 1 / 2 ≤ G1) (p2 : 1 / 2 ≤ G2) (hN : 2 ^ 1025 ≤ P * G1 * G2) : (mul (mul p g1) g2).isFinite = false := by
  have hU1 : U ≤ 1 / 10 ^ 15 := U_le_eta
  obtain ⟨a1, a2⟩ := hp.mille
  obtain ⟨b1, b2⟩ := h1.mille
  obtain ⟨c1, c2⟩ := h2.mille
  obtain ⟨d1, d2⟩ := prod_bounds (by linarith) (by linarith) a1 a2 b1 b2
  have hPG : 1 / 4 ≤ P * G1 := by nlinarith
  have hm := mul_between hp.1 h1.1 (r := p.rv * g1.rv) (by linarith) rfl
  by_cases hf : (mul p g1).isFinite = false
  · exact mul_not_finite_left hf
  have hf' : (mul p g1).isFinite = true := by simpa using hf
  have hm2 := _root_.abs_le.1 (hm.2 hf')
  have hUd : U * (p.rv * g1.rv) ≤ 1 / 10 ^ 15 * (p.rv * g1.rv) := mul_le_mul_of_nonneg_right hU1 (by linarith)
  have e1 : 0.99 * (P * G1) ≤ (mul p g1).rv := by linarith
  have e2 : (mul p g1).rv ≤ 1.01 * (P * G1) := by linarith
  obtain ⟨f1, f2⟩ := prod_bounds (by linarith) (by linarith) e1 e2 c1 c2
  have hN0 : P * G1 * (1 / 2) ≤ P * G1 * G2 := mul_le_mul_of_nonneg_left p2 (by linarith)
  have hm3 := mul_between hf' h2.1 (r := (mul p g1).rv * g2.rv) (by linarith) rfl
  rw [← Bool.not_eq_true, hm3.1, threshold_cast, not_lt]
  have e : (2 : ℝ) ^ 1025 = 2 * 2 ^ 1024 := by ring
  rw [e] at hN
  have : (0 : ℝ) ≤ 2 ^ 970 := by positivity
  have h1024 : (0 : ℝ) < 2 ^ 1024 := by positivity
  generalize (2 : ℝ) ^ 1024 = T at *
  linarith

theorem num_finite (hp : Near p P (1 / 1000 * P)) (h1 : Near g1 G1 (1 / 1000 * G1)) (h2 : Near g2 G2 (1 / 1000 * G2))
    (p0 : 1 / 2 ≤ P) (p1 : 1 / 2 ≤ G1) (p2 : 1 / 2 ≤ G2) (hN : P * G1 * G2 ≤ 2 ^ 1022) : (mul (mul p g1) g2).isFinite = true := by
  have hU1 : U ≤ 1 / 10 ^ 15 := U_le_eta
  obtain ⟨a1, a2⟩ := hp.mille
  obtain ⟨b1, b2⟩ := h1.mille
  obtain ⟨c1, c2⟩ := h2.mille
  obtain ⟨d1, d2⟩ := prod_bounds (by linarith) (by linarith) a1 a2 b1 b2
  have hPG : 1 / 4 ≤ P * G1 := by nlinarith
  have hN0 : P * G1 * (1 / 2) ≤ P * G1 * G2 := mul_le_mul_of_nonneg_left p2 (by linarith)
  have ht : (2 : ℝ) ^ 1024 - 2 ^ 970 ≥ 3.9 * 2 ^ 1022 := by norm_num
  have hm := mul_between hp.1 h1.1 (r := p.rv * g1.rv) (by linarith) rfl
  have hT : (0 : ℝ) < 2 ^ 1022 := by positivity
  rw [threshold_cast] at hm
  generalize (2 : ℝ) ^ 1022 = T at hN ht hT
  have hf' : (mul p g1).isFinite = true := hm.1.2 (by linarith)
  have hm2 := _root_.abs_le.1 (hm.2 hf')
  have hUd : U * (p.rv * g1.rv) ≤ 1 / 10 ^ 15 * (p.rv * g1.rv) := mul_le_mul_of_nonneg_right hU1 (by linarith)
  have e1 : 0.99 * (P * G1) ≤ (mul p g1).rv := by linarith
  have e2 : (mul p g1).rv ≤ 1.01 * (P * G1) := by linarith
  obtain ⟨f1, f2⟩ := prod_bounds (by linarith) (by linarith) e1 e2 c1 c2
  have hm3 := mul_between hf' h2.1 (r := (mul p g1).rv * g2.rv) (by linarith) rfl
  rw [threshold_cast] at hm3
  exact hm3.1.2 (by linarith)

end

variable [L : Libm]

/-! ## sums of the two parameters -/

theorem param_sum {a b : F64} (ha : a.isFinite = true) (hb : b.isFinite = true) (a1 : -1 < a.rv) (b1 : -1 < b.rv) (a2 : a.rv ≤ 168) (b2 : b.rv ≤ 168)
    {c : F64} {k : ℕ} (hc : IsNat c k) (hk : k ≤ 2) :
    Near (F64.add (F64.add a b) c) (a.rv + b.rv + k) (1 / 10 ^ 12) := by
  have hU := U_pos
  have hU1 : U ≤ 1 / 10 ^ 15 := U_le_eta
  have hk' : (k : ℝ) ≤ 2 := by exact_mod_cast hk
  have hk0 : (0 : ℝ) ≤ k := Nat.cast_nonneg k
  have na : Near a a.rv 0 := ⟨ha, by simp⟩
  have nb : Near b b.rv 0 := ⟨hb, by simp⟩
  have nc := hc.rel.near
  rw [zero_mul, zero_mul] at nc
  have h1 := na.add nb (A := 336) (by rw [add_zero, add_zero, _root_.abs_le]; constructor <;> linarith) (by norm_num)
  have h2 := h1.add nc (A := 339) (by
    have : |a.rv + b.rv + (k : ℝ)| ≤ 338 := by rw [_root_.abs_le]; constructor <;> linarith
    linarith) (by norm_num)
  exact h2.mono (by linarith)

/-- the power of two in the numerator -/
theorem two_pow_near (hP : AccuratePow L) {s : F64} {σ : ℝ} (hs : Near s σ (1 / 10 ^ 12)) (h1 : -1 ≤ σ) (h2 : σ ≤ 337) :
    Near (FloatOps.pow (lit 2.0 : F64) s) (2 ^ σ) (1 / 1000 * 2 ^ σ) := by
  have hd := _root_.abs_le.1 hs.2
  have v2 : (((lit 2.0 : F64).val : ℚ) : ℝ) = 2 := by rw [lit_two_isNat.2]; norm_num
  have h := hP (lit 2.0) s lit_two_isNat.1 hs.1 (by rw [v2]; norm_num) (by rw [v2]; norm_num) (by change -2 ≤ s.rv; linarith) (by change s.rv ≤ 400; linarith) (by
    rw [v2]
    change (2 : ℝ) ^ s.rv ≤ _
    rw [← Real.rpow_natCast (2 : ℝ) 1022]
    exact Real.rpow_le_rpow_of_exponent_le (by norm_num) (by push_cast; linarith))
  rw [v2] at h
  have h3 : |(FloatOps.pow (lit 2.0 : F64) s).rv - (2 : ℝ) ^ s.rv| ≤ 1 / 2 ^ 52 * 2 ^ s.rv := h.2
  refine ⟨h.1, ?_⟩
  have hp : (0 : ℝ) < 2 ^ σ := Real.rpow_pos_of_pos (by norm_num) _
  have e : (2 : ℝ) ^ s.rv = 2 ^ σ * Real.exp (Real.log 2 * (s.rv - σ)) := by
    rw [← Real.rpow_def_of_pos (by norm_num), ← Real.rpow_add (by norm_num)]; congr 1; ring
  have ht : |Real.log 2 * (s.rv - σ)| ≤ 1 / 10 ^ 12 := by
    rw [abs_mul]
    have l1 := Real.log_two_lt_d9
    have l0 := Real.log_pos (by norm_num : (1 : ℝ) < 2)
    rw [abs_of_pos l0]
    calc Real.log 2 * |s.rv - σ| ≤ 1 * (1 / 10 ^ 12) := mul_le_mul (by linarith) hs.2 (abs_nonneg _) (by norm_num)
      _ = _ := by norm_num
  have he := Real.abs_exp_sub_one_le (ht.trans (by norm_num))
  have he2 : |Real.exp (Real.log 2 * (s.rv - σ)) - 1| ≤ 2 / 10 ^ 12 := he.trans (by linarith)
  generalize Real.exp (Real.log 2 * (s.rv - σ)) = E at *
  have hE := _root_.abs_le.1 he2
  rw [e] at h3
  have h4 := abs_sub_le (FloatOps.pow (lit 2.0 : F64) s).rv ((2 : ℝ) ^ σ * E) (2 ^ σ)
  have h5 : |(2 : ℝ) ^ σ * E - 2 ^ σ| ≤ 2 / 10 ^ 12 * 2 ^ σ := by
    rw [show (2 : ℝ) ^ σ * E - 2 ^ σ = (E - 1) * 2 ^ σ by ring, abs_mul, abs_of_pos hp]
    exact mul_le_mul_of_nonneg_right he2 hp.le
  have h6 : (1 : ℝ) / 2 ^ 52 * (2 ^ σ * E) ≤ 1 / 10 ^ 10 * (2 ^ σ * 2) :=
    mul_le_mul (by norm_num) (mul_le_mul_of_nonneg_left (by linarith) hp.le) (mul_nonneg hp.le (by linarith)) (by norm_num)
  linarith

/-! ## gamma beyond its range -/

theorem big_pow {b y : ℝ} (hb : 66.3 ≤ b) (hy : 169.4 ≤ y) : 2 ^ 1025 ≤ b ^ y := by
  have h1 : (66.3 : ℝ) ^ (169.4 : ℝ) ≤ b ^ y :=
    (Real.rpow_le_rpow (by norm_num) hb (by norm_num)).trans (Real.rpow_le_rpow_of_exponent_le (by linarith) hy)
  refine le_trans ?_ h1
  have h2 : (((66.3 : ℝ) ^ (169.4 : ℝ)) ^ 5) = 66.3 ^ 847 := by
    rw [← Real.rpow_natCast _ 5, ← Real.rpow_mul (by norm_num), ← Real.rpow_natCast _ 847]
    norm_num
  have h3 : ((2 : ℝ) ^ 1025) ^ 5 ≤ ((66.3 : ℝ) ^ (169.4 : ℝ)) ^ 5 := by
    rw [h2, ← pow_mul]; norm_num
  exact le_of_pow_le_pow_left₀ (by norm_num) (by positivity) h3

theorem gamma_overflow (hO : PowOverflow L) {x : F64} (hx : x.isFinite = true) (h1 : 169.99 ≤ x.rv) (h2 : x.rv ≤ 2 ^ 800) :
    (gamma x).isInf = true ∧ (gamma x).sign = false := by
  have hU := U_pos
  have hU1 : U ≤ 1 / 10 ^ 15 := U_le_eta
  have hx0 : Near x x.rv 0 := ⟨hx, by simp⟩
  have hUx0 : 0 ≤ U * x.rv := by positivity
  have hUx1 : U * x.rv ≤ 1 / 10 ^ 15 * x.rv := mul_le_mul_of_nonneg_right hU1 (by linarith)
  have big : (2 : ℝ) ^ 800 + 2 ^ 800 + 2 ^ 800 ≤ 2 ^ 1000 := by norm_num
  have one8 : (1000 : ℝ) ≤ 2 ^ 800 := by norm_num
  have hden : ∀ i : ℕ, 1 ≤ i → i ≤ 10 → Rel (x +ᶠ ofNat i -ᶠ lit 1.0 : F64) (x.rv + i - 1) 4.01 := by
    intro i hi1 hi2
    have c1 : (1 : ℝ) ≤ i := by exact_mod_cast hi1
    have c2 : (i : ℝ) ≤ 10 := by exact_mod_cast hi2
    have n1 := (ofNat_isNat (L := L) (m := i) (by omega)).rel.near
    rw [zero_mul, zero_mul] at n1
    have n2 := (lit_one_rel (L := L)).near
    rw [zero_mul, zero_mul] at n2
    have s1 := hx0.add n1 (A := x.rv + i) (by rw [abs_of_pos (by linarith)]; linarith) (by linarith)
    have hUx : U * (x.rv + i) ≤ U * (3 * (x.rv + i - 1)) := mul_le_mul_of_nonneg_left (by linarith) hU.le
    have hUr : U * (x.rv + i - 1) ≤ 1 / 10 ^ 15 * (x.rv + i - 1) := mul_le_mul_of_nonneg_right hU1 (by linarith)
    have hUr0 : 0 ≤ U * (x.rv + i - 1) := mul_nonneg hU.le (by linarith)
    have s2 := s1.sub n2 (A := 1.001 * (x.rv + i - 1)) (by rw [abs_of_pos (by linarith)]; linarith) (by linarith)
    exact s2.rel (by rw [abs_of_pos (by linarith)]; linarith)
  have hs := series_near (L := L) (y := x.rv) (by linarith) h2 (by norm_num) (by norm_num) hden
  have hh := (lit_half_rel (L := L)).near
  rw [zero_mul, zero_mul] at hh
  have hY : Near (x -ᶠ lit 0.5 : F64) (x.rv - 1 / 2) (U * (x.rv - 1 / 2)) := by
    have := hx0.sub hh (A := x.rv - 1 / 2) (by rw [abs_of_nonneg (by linarith)]; linarith) (by linarith)
    exact this.mono (by linarith)
  obtain ⟨z1, z2⟩ := sum_size (y := x.rv) (by linarith)
  have hc : (twoSqrtEOverPi : ℝ) = 1.8603827342052657 := by norm_num [twoSqrtEOverPi]
  have m1 := moderate (a := lanczosSum x.rv * (twoSqrtEOverPi : ℝ)) (by rw [hc]; linarith [show (1 : ℝ) / 2 ^ 200 ≤ 4 / 10 ^ 9 by norm_num])
    (by rw [hc]; linarith [show (100 : ℝ) ≤ 2 ^ 200 by norm_num])
  have r1 := hs.mul const_rel m1.1 m1.2 (by norm_num) (by norm_num) (by norm_num) (by norm_num) (d := 81600) (by norm_num)
  have hpos : 0 < lanczosSum x.rv * (twoSqrtEOverPi : ℝ) := by rw [hc]; linarith
  -- the base
  have he1 := Real.exp_one_gt_d9
  have he2 := Real.exp_one_lt_d9
  have hR : (gammaR : ℝ) = 10.900511 := by norm_num [gammaR]
  have hsR := gammaR_near (L := L)
  rw [hR] at hsR
  generalize hYd : x.rv - 1 / 2 = Y at *
  have hY1 : 169.49 ≤ Y := by linarith
  have hY2 : Y ≤ 2 ^ 800 := by linarith
  have hUY : 0 ≤ U * (Y + 10.900511) := mul_nonneg hU.le (by linarith)
  have hUY2 : U * (Y + 10.900511) ≤ 1 / 10 ^ 15 * (Y + 10.900511) := mul_le_mul_of_nonneg_right hU1 (by linarith)
  have h3 := hY.add hsR (A := 1.001 * (Y + 10.900511)) (by rw [abs_of_pos (by linarith)]; linarith) (by linarith)
  have h4 : Rel (x -ᶠ lit 0.5 +ᶠ lit gammaR : F64) (Y + 10.900511) 2.002 := h3.rel (by rw [abs_of_pos (by linarith)]; linarith)
  have l1 : 66.36 ≤ (Y + 10.900511) / Real.exp 1 := by rw [le_div_iff₀ (by positivity)]; linarith
  have l2 : (Y + 10.900511) / Real.exp 1 ≤ 2 ^ 801 := by
    rw [div_le_iff₀ (by positivity)]
    have : (2 : ℝ) ^ 801 = 2 * 2 ^ 800 := by ring
    rw [this]
    nlinarith
  have r2 := Rel.div h4 e_rel (by positivity) (by rw [abs_of_pos (by linarith)]; exact le_trans (by norm_num) l1)
    (by rw [abs_of_pos (by linarith)]; exact l2.trans (by norm_num)) (by norm_num) (by norm_num) (by norm_num) (by norm_num) (d := 3.51) (by norm_num)
  have hbl : 66.3 ≤ (F64.div (x -ᶠ lit 0.5 +ᶠ lit gammaR : F64) FloatOps.e).rv := by
    have h5 := r2.2
    rw [abs_of_pos (by linarith : 0 < (Y + 10.900511) / Real.exp 1)] at h5
    have h6 : 3.51 * U * ((Y + 10.900511) / Real.exp 1) ≤ 1 / 10 ^ 5 * ((Y + 10.900511) / Real.exp 1) := mul_le_mul_of_nonneg_right (by linarith) (by linarith)
    have := _root_.abs_le.1 (h5.trans h6)
    linarith
  have hyl : 169.4 ≤ (x -ᶠ lit 0.5 : F64).rv := by
    have := _root_.abs_le.1 hY.2
    have h6 : U * Y ≤ 1 / 10 ^ 15 * Y := mul_le_mul_of_nonneg_right hU1 (by linarith)
    linarith
  have hpw := hO _ _ r2.1 hY.1 (by change 1 ≤ (F64.div (x -ᶠ lit 0.5 +ᶠ lit gammaR : F64) FloatOps.e).rv; linarith)
    (by change 0 ≤ (x -ᶠ lit 0.5 : F64).rv; linarith) (big_pow hbl hyl)
  have e1 : (gamma x : F64) = gammaSeries (fun i => x +ᶠ ofNat i -ᶠ lit 1.0) *ᶠ lit twoSqrtEOverPi *ᶠ
      FloatOps.pow ((x -ᶠ lit 0.5 +ᶠ lit gammaR) /ᶠ FloatOps.e) (x -ᶠ lit 0.5) := by
    unfold gamma
    rw [if_neg (by rw [lt_half hx]; linarith)]
  rw [e1]
  refine mul_pos_inf r1.1 (rv_pos_val ?_) hpw.1 hpw.2
  change 0 < (F64.mul (gammaSeries fun i => x +ᶠ ofNat i -ᶠ lit 1.0) (lit twoSqrtEOverPi)).rv
  have h5 := r1.2
  rw [abs_of_pos hpos] at h5
  have h6 : 81600 * U * (lanczosSum x.rv * (twoSqrtEOverPi : ℝ)) ≤ 1 / 2 * (lanczosSum x.rv * (twoSqrtEOverPi : ℝ)) := mul_le_mul_of_nonneg_right (by linarith) hpos.le
  have := _root_.abs_le.1 (h5.trans h6)
  linarith [this.1]

omit L in
/-- an accurate backend that also overflows -/
theorem accurateOverflow_exists : ∃ L : Libm, AccurateTrig L ∧ AccuratePow L ∧ PowOverflow L := by
  obtain ⟨L, -, h1, -, h2, -⟩ := accurateLibm_exists'
  classical
  refine ⟨⟨L.sin, L.cos, fun x y => if (2 : ℝ) ^ 1025 ≤ (x.val : ℝ) ^ (y.val : ℝ) then inf false else L.pow x y, L.sqrt⟩, ⟨h1.sin, h1.cos⟩, ?_, ?_⟩
  · intro x y hx hy a1 a2 a3 a4 a5
    have : ¬ (2 : ℝ) ^ 1025 ≤ (x.val : ℝ) ^ (y.val : ℝ) := not_le.2 (a5.trans_lt (by norm_num))
    simp only [this, if_false]
    exact h2 x y hx hy a1 a2 a3 a4 a5
  · intro x y hx hy a1 a2 a3
    simp only [a3, if_true]
    exact ⟨inf_isInf _, rfl⟩

end GaussQuad.F64
