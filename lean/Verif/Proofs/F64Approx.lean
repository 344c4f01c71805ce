import Verif.Proofs.F64Nat
import Verif.Proofs.F64Error
import Verif.Model.RealOps
import Mathlib.Tactic.Linarith
import Mathlib.Tactic.Positivity
import Mathlib.Tactic.FieldSimp
import Mathlib.Algebra.Order.Field.Basic

/-!
# binary64 against the reals: forward error bounds

`Near x r ε`: the float `x` is finite and within `ε` of the real number `r`.
`Rel x r c`: the float `x` is finite and within `c` units of roundoff (`2^-53`) relative to `r`.
-/

set_option exponentiation.threshold 3000

namespace GaussQuad.F64
open Spec

/-- unit roundoff as a real number -/
noncomputable def U : ℝ := 1 / 2 ^ 53

theorem U_pos : 0 < U := by unfold U; positivity
theorem U_cast : ((u : ℚ) : ℝ) = U := by simp [u, U]

/-- the real number represented by a finite float -/
noncomputable def rv (x : F64) : ℝ := (x.val : ℝ)

/-- absolute error -/
def Near (x : F64) (r ε : ℝ) : Prop := x.isFinite = true ∧ |x.rv - r| ≤ ε

/-- relative error in units of roundoff -/
def Rel (x : F64) (r c : ℝ) : Prop := x.isFinite = true ∧ |x.rv - r| ≤ c * U * |r|

theorem Near.mono {x : F64} {r ε δ : ℝ} (h : Near x r ε) (hε : ε ≤ δ) : Near x r δ := ⟨h.1, h.2.trans hε⟩

theorem Near.shift {x : F64} {r s ε δ : ℝ} (h : Near x r ε) (hs : |r - s| ≤ δ) : Near x s (ε + δ) :=
  ⟨h.1, (abs_sub_le _ r _).trans (add_le_add h.2 hs)⟩

theorem Rel.mono {x : F64} {r c d : ℝ} (h : Rel x r c) (hc : c ≤ d) : Rel x r d :=
  ⟨h.1, h.2.trans (by have := U_pos; gcongr)⟩

theorem Rel.near {x : F64} {r c : ℝ} (h : Rel x r c) : Near x r (c * U * |r|) := h

theorem Near.rel {x : F64} {r ε c : ℝ} (h : Near x r ε) (hc : ε ≤ c * U * |r|) : Rel x r c := ⟨h.1, h.2.trans hc⟩

/-- the rational that is rounded is below the overflow threshold -/
theorem big_ok : ((2 : ℚ) ^ 1023) < overflowThreshold := by unfold overflowThreshold; norm_num

theorem round_finite_of_le {q : ℚ} {s : Bool} (h : |(q : ℝ)| ≤ 2 ^ 1023) : (round q s).isFinite = true := by
  rw [round_isFinite_iff]
  refine lt_of_le_of_lt ?_ big_ok
  have : ((|q| : ℚ) : ℝ) ≤ ((2 ^ 1023 : ℚ) : ℝ) := by push_cast; exact h
  exact_mod_cast this

/-- one rounding: relative error plus half the smallest subnormal -/
theorem round_near {q : ℚ} {s : Bool} (h : |(q : ℝ)| ≤ 2 ^ 1023) : Near (round q s) q (U * |(q : ℝ)| + 1 / 2 ^ 1075) := by
  have hf := round_finite_of_le (s := s) h
  refine ⟨hf, ?_⟩
  have key : |(round q s).val - q| ≤ u * |q| + 1 / 2 ^ 1075 := by
    by_cases hq : q = 0
    · subst hq; rw [round_zero, val_zero]; simp
    by_cases hn : 1 / 2 ^ 1022 ≤ |q|
    · exact (round_error_normal hf hn).trans (by simp)
    obtain ⟨K, e, h1, h2, h3⟩ := round_error_units hf hq
    have hp := pow1074_pos
    rcases h2 with rfl | h2
    · rw [pow_zero] at h3
      rw [← h1] at h3
      rw [abs_sub_comm]
      have : |q - (round q s).val| ≤ 1 / 2 ^ 1075 := by
        rw [le_div_iff₀ (by positivity), show (2 : ℚ) ^ 1075 = 2 ^ 1074 * 2 by rw [← pow_succ]]
        linarith
      have := u_pos
      have := mul_nonneg u_pos.le (abs_nonneg q)
      linarith
    · exfalso
      apply hn
      rw [div_le_iff₀ (by positivity)]
      have e1 : (2 : ℚ) ^ 1074 = 2 ^ 52 * 2 ^ 1022 := by rw [← pow_add]
      rw [pow_add, e1] at h2
      have h4 : (1 : ℚ) ≤ 2 ^ e := one_le_pow₀ (by norm_num)
      have h5 : (0 : ℚ) < 2 ^ 52 := by positivity
      have h6 : (2 : ℚ) ^ 52 * 1 ≤ 2 ^ 52 * (|q| * 2 ^ 1022) := by nlinarith
      exact le_of_mul_le_mul_left h6 h5
  have : ((|(round q s).val - q| : ℚ) : ℝ) ≤ ((u * |q| + 1 / 2 ^ 1075 : ℚ) : ℝ) := by exact_mod_cast key
  rw [← U_cast]
  simpa [rv] using this

theorem round_rel {q : ℚ} {s : Bool} (h : |(q : ℝ)| ≤ 2 ^ 1023) (h0 : 1 / 2 ^ 1020 ≤ |(q : ℝ)|) : Rel (round q s) q 1 := by
  have hf := round_finite_of_le (s := s) h
  refine ⟨hf, ?_⟩
  have h0' : (1 / 2 ^ 1022 : ℚ) ≤ |q| := by
    have : ((1 / 2 ^ 1022 : ℚ) : ℝ) ≤ ((|q| : ℚ) : ℝ) := by
      push_cast
      refine le_trans ?_ h0
      exact one_div_le_one_div_of_le (by positivity) (pow_le_pow_right₀ (by norm_num) (by norm_num))
    exact_mod_cast this
  have key := round_error_normal hf h0'
  have : ((|(round q s).val - q| : ℚ) : ℝ) ≤ ((u * |q| : ℚ) : ℝ) := by exact_mod_cast key
  rw [← U_cast, one_mul]
  simpa [rv] using this

theorem Near.abs_le {x : F64} {r ε A : ℝ} (h : Near x r ε) (hr : |r| ≤ A) : |x.rv| ≤ A + ε := by
  have := abs_sub_abs_le_abs_sub x.rv r
  linarith [h.2]

/-! ## sums -/

theorem Near.add {x y : F64} {r s ε δ A : ℝ} (hx : Near x r ε) (hy : Near y s δ) (hA : |r + s| + (ε + δ) ≤ A) (hb : A ≤ 2 ^ 1023) :
    Near (F64.add x y) (r + s) (ε + δ + U * A) := by
  have h1 : |x.rv + y.rv - (r + s)| ≤ ε + δ := by
    have e : x.rv + y.rv - (r + s) = (x.rv - r) + (y.rv - s) := by ring
    rw [e]; exact (abs_add_le _ _).trans (add_le_add hx.2 hy.2)
  have h2 : |x.rv + y.rv| ≤ A := by
    have := abs_sub_abs_le_abs_sub (x.rv + y.rv) (r + s)
    linarith
  have hf : (F64.add x y).isFinite = true := by
    rw [add_finite hx.1 hy.1]
    apply round_finite_of_le
    push_cast
    exact h2.trans hb
  refine ⟨hf, ?_⟩
  have h3 := (add_error hf).2.2
  have h4 : |(F64.add x y).rv - (x.rv + y.rv)| ≤ U * |x.rv + y.rv| := by
    have : ((|(F64.add x y).val - (x.val + y.val)| : ℚ) : ℝ) ≤ ((u * |x.val + y.val| : ℚ) : ℝ) := by exact_mod_cast h3
    rw [← U_cast]
    simpa [rv] using this
  have h5 : U * |x.rv + y.rv| ≤ U * A := mul_le_mul_of_nonneg_left h2 U_pos.le
  have := abs_sub_le (F64.add x y).rv (x.rv + y.rv) (r + s)
  linarith

theorem Near.neg {x : F64} {r ε : ℝ} (hx : Near x r ε) : Near (F64.neg x) (-r) ε := by
  refine ⟨by rw [neg_isFinite]; exact hx.1, ?_⟩
  have e : (F64.neg x).rv = -x.rv := by simp [rv, val_neg']
  rw [e, show -x.rv - -r = -(x.rv - r) by ring, abs_neg]
  exact hx.2

theorem Near.sub {x y : F64} {r s ε δ A : ℝ} (hx : Near x r ε) (hy : Near y s δ) (hA : |r - s| + (ε + δ) ≤ A) (hb : A ≤ 2 ^ 1023) :
    Near (F64.sub x y) (r - s) (ε + δ + U * A) := by
  rw [sub_eq_add_neg] at *
  exact hx.add hy.neg hA hb

/-! ## products -/

theorem Near.mul {x y : F64} {r s ε δ A B : ℝ} (hx : Near x r ε) (hy : Near y s δ) (hA : |r| + ε ≤ A) (hB : |s| + δ ≤ B)
    (hb : A * B ≤ 2 ^ 1023) : Near (F64.mul x y) (r * s) (A * δ + ε * B + U * (A * B) + 1 / 2 ^ 1075) := by
  have hε : 0 ≤ ε := (abs_nonneg _).trans hx.2
  have hδ : 0 ≤ δ := (abs_nonneg _).trans hy.2
  have a1 : |x.rv| ≤ A := (hx.abs_le le_rfl).trans hA
  have a2 : |y.rv| ≤ B := (hy.abs_le le_rfl).trans hB
  have a3 : |r| ≤ A := by linarith
  have hA0 : 0 ≤ A := (abs_nonneg _).trans a1
  have h2 : |x.rv * y.rv| ≤ A * B := by rw [abs_mul]; exact mul_le_mul a1 a2 (abs_nonneg _) hA0
  have h1 : |x.rv * y.rv - r * s| ≤ A * δ + ε * B := by
    have e : x.rv * y.rv - r * s = r * (y.rv - s) + (x.rv - r) * y.rv := by ring
    rw [e]
    refine (abs_add_le _ _).trans (add_le_add ?_ ?_)
    · rw [abs_mul]; exact mul_le_mul a3 hy.2 (abs_nonneg _) hA0
    · rw [abs_mul]; exact mul_le_mul hx.2 a2 (abs_nonneg _) hε
  rw [mul_finite hx.1 hy.1]
  have hq : |((x.val * y.val : ℚ) : ℝ)| ≤ 2 ^ 1023 := by push_cast; exact h2.trans hb
  have h3 := round_near (s := (x.sign != y.sign)) hq
  refine ⟨h3.1, ?_⟩
  have e : ((x.val * y.val : ℚ) : ℝ) = x.rv * y.rv := by simp [rv]
  have h4 := h3.2
  rw [e] at h4
  have h5 : U * |x.rv * y.rv| ≤ U * (A * B) := mul_le_mul_of_nonneg_left h2 U_pos.le
  have := abs_sub_le (F64.round (x.val * y.val) (x.sign != y.sign)).rv (x.rv * y.rv) (r * s)
  linarith

/-! ## relative errors -/

theorem Rel.exists {x : F64} {r c : ℝ} (h : Rel x r c) (h0 : r ≠ 0) : ∃ a : ℝ, |a| ≤ c * U ∧ x.rv = r * (1 + a) := by
  refine ⟨(x.rv - r) / r, ?_, by field_simp; ring⟩
  rw [abs_div, div_le_iff₀ (abs_pos.2 h0)]
  exact h.2

theorem U_small : U * 1000000 ≤ 0.001 / 1000 := by unfold U; norm_num

theorem prod_bound {a b d c e : ℝ} (ha : |a| ≤ c * U) (hb : |b| ≤ e * U) (hd : |d| ≤ 1 * U) (hc0 : 0 ≤ c) (he0 : 0 ≤ e) (hc : c ≤ 100000) (he : e ≤ 100000) :
    |(1 + a) * (1 + b) * (1 + d) - 1| ≤ (c + e + 1.001) * U := by
  have hU := U_pos
  have hs := U_small
  have k1 : |a * b| ≤ c * U * (e * U) := by rw [abs_mul]; gcongr
  have k2 : |a * d| ≤ c * U * (1 * U) := by rw [abs_mul]; gcongr
  have k3 : |b * d| ≤ e * U * (1 * U) := by rw [abs_mul]; gcongr
  have k4 : |a * b * d| ≤ c * U * (e * U) * (1 * U) := by rw [abs_mul, abs_mul]; gcongr
  have e1 : (1 + a) * (1 + b) * (1 + d) - 1 = a + b + d + a * b + a * d + b * d + a * b * d := by ring
  have hce : c * e ≤ 10000000000 := by nlinarith
  have hU1 : U ≤ 1 / 1000000000000000 := by unfold U; norm_num
  have hq : ∀ t : ℝ, t ≤ 10000000000 → t * U * U ≤ 0.0001 * U := fun t ht => by
    have : t * U ≤ 10000000000 * (1 / 1000000000000000) := by
      calc t * U ≤ 10000000000 * U := by gcongr
        _ ≤ _ := by gcongr
    exact mul_le_mul_of_nonneg_right (this.trans (by norm_num)) hU.le
  have hsq : c * U * (e * U) ≤ 0.0001 * U := by
    have : c * U * (e * U) = (c * e) * U * U := by ring
    rw [this]; exact hq _ hce
  have hsq2 : c * U * (1 * U) ≤ 0.0001 * U := by
    rw [one_mul]; exact hq _ (by linarith)
  have hsq3 : e * U * (1 * U) ≤ 0.0001 * U := by
    rw [one_mul]; exact hq _ (by linarith)
  have hsq4 : c * U * (e * U) * (1 * U) ≤ 0.0001 * U := by
    have h0 : 0 ≤ c * U * (e * U) := by positivity
    nlinarith
  rw [e1]
  have := abs_add_le (a + b + d + a * b + a * d + b * d) (a * b * d)
  have := abs_add_le (a + b + d + a * b + a * d) (b * d)
  have := abs_add_le (a + b + d + a * b) (a * d)
  have := abs_add_le (a + b + d) (a * b)
  have := abs_add_le (a + b) d
  have := abs_add_le a b
  nlinarith

theorem half_le {c : ℝ} (hc : c ≤ 100000) : c * U ≤ 1 / 2 := by
  have := U_pos
  have hU1 : U ≤ 1 / 1000000 := by unfold U; norm_num
  nlinarith

theorem Rel.mul {x y : F64} {r s c e d : ℝ} (hx : Rel x r c) (hy : Rel y s e) (h1 : 1 / 2 ^ 900 ≤ |r * s|) (h2 : |r * s| ≤ 2 ^ 1015)
    (hc0 : 0 ≤ c) (he0 : 0 ≤ e) (hc : c ≤ 100000) (he : e ≤ 100000) (hd : c + e + 1.001 ≤ d) : Rel (F64.mul x y) (r * s) d := by
  have hne : r * s ≠ 0 := by
    intro h; rw [h, abs_zero] at h1; exact absurd h1 (not_le.2 (by positivity))
  have hr : r ≠ 0 := left_ne_zero_of_mul hne
  have hs : s ≠ 0 := right_ne_zero_of_mul hne
  obtain ⟨a, ha, ea⟩ := hx.exists hr
  obtain ⟨b, hb, eb⟩ := hy.exists hs
  have q1 := half_le hc
  have q2 := half_le he
  have a1 := abs_le.1 (ha.trans q1)
  have b1 := abs_le.1 (hb.trans q2)
  have e1 : ((x.val * y.val : ℚ) : ℝ) = r * s * ((1 + a) * (1 + b)) := by
    have : ((x.val * y.val : ℚ) : ℝ) = x.rv * y.rv := by simp [rv]
    rw [this, ea, eb]; ring
  have l1 : 1 / 4 ≤ (1 + a) * (1 + b) := by nlinarith
  have l2 : (1 + a) * (1 + b) ≤ 4 := by nlinarith
  have eabs : |((x.val * y.val : ℚ) : ℝ)| = |r * s| * ((1 + a) * (1 + b)) := by
    rw [e1, abs_mul, abs_of_nonneg (by linarith : 0 ≤ (1 + a) * (1 + b))]
  have big : |((x.val * y.val : ℚ) : ℝ)| ≤ 2 ^ 1023 := by
    rw [eabs]
    calc |r * s| * ((1 + a) * (1 + b)) ≤ 2 ^ 1015 * 4 := by gcongr
      _ ≤ 2 ^ 1023 := by norm_num
  have small : 1 / 2 ^ 1020 ≤ |((x.val * y.val : ℚ) : ℝ)| := by
    rw [eabs]
    calc (1 : ℝ) / 2 ^ 1020 ≤ 1 / 2 ^ 900 * (1 / 4) := by norm_num
      _ ≤ |r * s| * ((1 + a) * (1 + b)) := by gcongr
  rw [mul_finite hx.1 hy.1]
  have hr' := round_rel (s := (x.sign != y.sign)) big small
  have hq0 : ((x.val * y.val : ℚ) : ℝ) ≠ 0 := by
    intro h; rw [h, abs_zero] at small; exact absurd small (not_le.2 (by positivity))
  obtain ⟨w, hw, ew⟩ := hr'.exists hq0
  refine ⟨hr'.1, ?_⟩
  rw [ew, e1, show r * s * ((1 + a) * (1 + b)) * (1 + w) - r * s = r * s * ((1 + a) * (1 + b) * (1 + w) - 1) by ring, abs_mul, mul_comm]
  have := prod_bound ha hb hw hc0 he0 hc he
  gcongr
  exact this.trans (by have := U_pos; gcongr)

theorem inv_bound {b e : ℝ} (hb : |b| ≤ e * U) (he0 : 0 ≤ e) (he : e ≤ 100000) : |1 / (1 + b) - 1| ≤ (e + 0.0001) * U := by
  have hU := U_pos
  have hU1 : U ≤ 1 / 1000000000000000 := by unfold U; norm_num
  have h := abs_le.1 hb
  have q : e * U ≤ 1 / 100000000 := by nlinarith
  have hpos : 0 < 1 + b := by linarith
  have e1 : 1 / (1 + b) - 1 = -b / (1 + b) := by field_simp; ring
  rw [e1, abs_div, abs_neg, abs_of_pos hpos, div_le_iff₀ hpos]
  have : (e + 0.0001) * U * (1 + b) ≥ (e + 0.0001) * U * (1 - e * U) := by
    gcongr; linarith
  have k : (e + 0.0001) * U * (e * U) ≤ 0.0001 * U := by
    have : (e + 0.0001) * (e * U) ≤ 0.0001 := by nlinarith
    nlinarith
  nlinarith

theorem Rel.val_ne {y : F64} {s e : ℝ} (hy : Rel y s e) (he : e ≤ 100000) (hs : s ≠ 0) : y.val ≠ 0 := by
  intro h
  have h2 := hy.2
  have e0 : y.rv = 0 := by simp [rv, h]
  rw [e0, zero_sub, abs_neg] at h2
  have := half_le he
  have hp := abs_pos.2 hs
  nlinarith

theorem Rel.div {x y : F64} {r s c e d : ℝ} (hx : Rel x r c) (hy : Rel y s e) (hs : s ≠ 0) (h1 : 1 / 2 ^ 900 ≤ |r / s|) (h2 : |r / s| ≤ 2 ^ 1015)
    (hc0 : 0 ≤ c) (he0 : 0 ≤ e) (hc : c ≤ 100000) (he : e ≤ 90000) (hd : c + e + 1.0012 ≤ d) : Rel (F64.div x y) (r / s) d := by
  have hne : r / s ≠ 0 := by
    intro h; rw [h, abs_zero] at h1; exact absurd h1 (not_le.2 (by positivity))
  have hr : r ≠ 0 := by rintro rfl; simp at hne
  obtain ⟨a, ha, ea⟩ := hx.exists hr
  obtain ⟨b', hb', eb⟩ := hy.exists hs
  have hyv := hy.val_ne (by linarith) hs
  have hb := inv_bound hb' he0 (by linarith)
  have hpos : 0 < 1 + b' := by have := abs_le.1 (hb'.trans (half_le (by linarith))); linarith
  obtain ⟨b, eb2⟩ : ∃ b, 1 / (1 + b') - 1 = b := ⟨_, rfl⟩
  rw [eb2] at hb
  have q1 := half_le hc
  have q2 := half_le (show e + 0.0001 ≤ 100000 by linarith)
  have a1 := abs_le.1 (ha.trans q1)
  have b1 := abs_le.1 (hb.trans q2)
  have e1 : ((x.val / y.val : ℚ) : ℝ) = r / s * ((1 + a) * (1 + b)) := by
    have : ((x.val / y.val : ℚ) : ℝ) = x.rv / y.rv := by simp [rv]
    rw [this, ea, eb, ← eb2]; field_simp; ring
  have l1 : 1 / 4 ≤ (1 + a) * (1 + b) := by nlinarith
  have l2 : (1 + a) * (1 + b) ≤ 4 := by nlinarith
  have eabs : |((x.val / y.val : ℚ) : ℝ)| = |r / s| * ((1 + a) * (1 + b)) := by
    rw [e1, abs_mul, abs_of_nonneg (by linarith : 0 ≤ (1 + a) * (1 + b))]
  have big : |((x.val / y.val : ℚ) : ℝ)| ≤ 2 ^ 1023 := by
    rw [eabs]
    calc |r / s| * ((1 + a) * (1 + b)) ≤ 2 ^ 1015 * 4 := by gcongr
      _ ≤ 2 ^ 1023 := by norm_num
  have small : 1 / 2 ^ 1020 ≤ |((x.val / y.val : ℚ) : ℝ)| := by
    rw [eabs]
    calc (1 : ℝ) / 2 ^ 1020 ≤ 1 / 2 ^ 900 * (1 / 4) := by norm_num
      _ ≤ |r / s| * ((1 + a) * (1 + b)) := by gcongr
  have hz : y.isZero = false := by
    simp only [isZero, decide_eq_false_iff_not]
    intro h; exact hyv (val_eq_zero_iff.2 h)
  rw [div_finite hx.1 hy.1 hz]
  have hr' := round_rel (s := (x.sign != y.sign)) big small
  have hq0 : ((x.val / y.val : ℚ) : ℝ) ≠ 0 := by
    intro h; rw [h, abs_zero] at small; exact absurd small (not_le.2 (by positivity))
  obtain ⟨w, hw, ew⟩ := hr'.exists hq0
  refine ⟨hr'.1, ?_⟩
  rw [ew, e1, show r / s * ((1 + a) * (1 + b)) * (1 + w) - r / s = r / s * ((1 + a) * (1 + b) * (1 + w) - 1) by ring, abs_mul, mul_comm]
  have := prod_bound ha hb hw hc0 (by linarith : 0 ≤ e + 0.0001) hc (by linarith)
  gcongr
  exact this.trans (by have := U_pos; gcongr; linarith)

/-- sum of two numbers of the same sign -/
theorem Rel.add_pos {x y : F64} {r s c d : ℝ} (hx : Rel x r c) (hy : Rel y s c) (hr : 0 ≤ r) (hs : 0 ≤ s) (h2 : r + s ≤ 2 ^ 1015)
    (hc0 : 0 ≤ c) (hc : c ≤ 100000) (hd : c + 1.001 ≤ d) : Rel (F64.add x y) (r + s) d := by
  have hU := U_pos
  have hU1 : U ≤ 1 / 1000000000 := by unfold U; norm_num
  have := hx.near.add hy.near (A := (r + s) * (1 + c * U)) (by
    rw [abs_of_nonneg hr, abs_of_nonneg hs, abs_of_nonneg (add_nonneg hr hs)]; apply le_of_eq; ring) (by
    calc (r + s) * (1 + c * U) ≤ 2 ^ 1015 * 2 := by
          gcongr; have := half_le hc; linarith
      _ ≤ 2 ^ 1023 := by norm_num)
  refine this.rel ?_
  rw [abs_of_nonneg hr, abs_of_nonneg hs, abs_of_nonneg (add_nonneg hr hs)]
  have k : (c + 1.001) * U * (r + s) ≤ d * U * (r + s) := by gcongr
  refine le_trans ?_ k
  have k2 : c * U ≤ 0.001 := by nlinarith
  have k3 : 0 ≤ U * (r + s) := by positivity
  nlinarith

theorem Rel.ofRat {q : ℚ} {s : Bool} (h : |(q : ℝ)| ≤ 2 ^ 1023) (h0 : 1 / 2 ^ 1020 ≤ |(q : ℝ)|) : Rel (round q s) q 1 := round_rel h h0

end GaussQuad.F64
