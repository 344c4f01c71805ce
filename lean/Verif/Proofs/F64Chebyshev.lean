import Verif.Proofs.F64Bessel
import Verif.Proofs.F64Nat
import Verif.Model.Chebyshev

/-! Rounding errors of the two Chebyshev rules in binary64. -/

set_option exponentiation.threshold 3000

namespace GaussQuad.F64
open FloatOps Spec

/-- `x` is exactly the integer `m` -/
def IsNat (x : F64) (m : ℕ) : Prop := x.isFinite = true ∧ x.val = m

theorem IsNat.rel {x : F64} {m : ℕ} (h : IsNat x m) : Rel x m 0 := ⟨h.1, by simp [rv, h.2]⟩

theorem IsNat.mul {x y : F64} {m k : ℕ} (hx : IsNat x m) (hy : IsNat y k) (h : m * k < 2 ^ 53) : IsNat (F64.mul x y) (m * k) := by
  have e : F64.mul x y = round ((m * k : ℕ) : ℚ) (x.sign != y.sign) := by rw [mul_finite hx.1 hy.1, hx.2, hy.2]; push_cast; rfl
  rw [IsNat, e]
  exact ⟨(val_round_nat h _).2, (val_round_nat h _).1⟩

theorem IsNat.add {x y : F64} {m k : ℕ} (hx : IsNat x m) (hy : IsNat y k) (h : m + k < 2 ^ 53) : IsNat (F64.add x y) (m + k) := by
  have e : F64.add x y = round ((m + k : ℕ) : ℚ) (x.sign && y.sign) := by rw [add_finite hx.1 hy.1, hx.2, hy.2]; push_cast; rfl
  rw [IsNat, e]
  exact ⟨(val_round_nat h _).2, (val_round_nat h _).1⟩

theorem IsNat.sub {x y : F64} {m k : ℕ} (hx : IsNat x m) (hy : IsNat y k) (hk : k ≤ m) (h : m - k < 2 ^ 53) : IsNat (F64.sub x y) (m - k) := by
  have e : F64.sub x y = round ((m - k : ℕ) : ℚ) (x.sign && !y.sign) := by rw [sub_finite hx.1 hy.1, hx.2, hy.2]; push_cast [hk]; rfl
  rw [IsNat, e]
  exact ⟨(val_round_nat h _).2, (val_round_nat h _).1⟩

variable [L : Libm]

theorem ofNat_isNat {m : ℕ} (h : m < 2 ^ 53) : IsNat (ofNat m : F64) m := ⟨(val_round_nat h false).2, (val_round_nat h false).1⟩

theorem lit_one_isNat : IsNat (lit 1.0 : F64) 1 := by
  have e : (lit 1.0 : F64) = ofNat 1 := by show F64.round 1.0 false = F64.round ((1 : ℕ) : ℚ) false; norm_num
  rw [e]; exact ofNat_isNat (by norm_num)

theorem lit_two_isNat : IsNat (lit 2.0 : F64) 2 := by
  have e : (lit 2.0 : F64) = ofNat 2 := by show F64.round 2.0 false = F64.round ((2 : ℕ) : ℚ) false; norm_num
  rw [e]; exact ofNat_isNat (by norm_num)

theorem pos_moderate {a : ℝ} (h1 : 1 / 2 ^ 100 ≤ a) (h2 : a ≤ 2 ^ 100) : 1 / 2 ^ 900 ≤ |a| ∧ |a| ≤ 2 ^ 1015 :=
  moderate (le_trans (by norm_num) h1) (h2.trans (by norm_num))

/-- range of an accurately computed angle -/
theorem angle_range {x : F64} {t c : ℝ} (hx : Rel x t c) (hc0 : 0 ≤ c) (hc : c ≤ 10) (h1 : 0 ≤ t) (h2 : t ≤ Real.pi) :
    0 ≤ x.rv ∧ x.rv ≤ 4 ∧ |x.rv - t| ≤ c * 3.1416 * U := by
  have hU := U_pos
  have hp := Real.pi_lt_d4
  have hd := hx.2
  rw [abs_of_nonneg h1] at hd
  have hb : c * U ≤ 0.01 := by
    have := mul_le_mul_of_nonneg_right hc hU.le
    have : 10 * U ≤ 0.01 := by unfold U; norm_num
    linarith
  have h3 := _root_.abs_le.1 hd
  have h4 : c * U * t ≤ 0.01 * t := mul_le_mul_of_nonneg_right hb h1
  have h5 : c * U * t ≤ c * U * 3.1416 := mul_le_mul_of_nonneg_left (by linarith) (by positivity)
  exact ⟨by linarith, by linarith, by linarith⟩

/-- `cos` of an accurately computed angle -/
theorem cos_near (hL : AccurateTrig L) {x : F64} {t c : ℝ} (hx : Rel x t c) (hc0 : 0 ≤ c) (hc : c ≤ 10) (h1 : 0 ≤ t) (h2 : t ≤ Real.pi) :
    Near (L.cos x) (Real.cos t) (c * 3.1416 * U + 2 * U) := by
  obtain ⟨r1, r2, r3⟩ := angle_range hx hc0 hc h1 h2
  obtain ⟨a1, a2⟩ := hL.cos x hx.1 r1 r2
  refine ⟨a1, ?_⟩
  have h3 := Real.abs_cos_sub_cos_le x.rv t
  have h4 := abs_sub_le (L.cos x).rv (Real.cos x.rv) (Real.cos t)
  have e : (1 : ℝ) / 2 ^ 52 = 2 * U := by unfold U; norm_num
  have a2' : |(L.cos x).rv - Real.cos x.rv| ≤ 2 * U := by rw [← e]; exact a2
  linarith

/-- `sin` of an accurately computed angle -/
theorem sin_near (hL : AccurateSin L) {x : F64} {t c : ℝ} (hx : Rel x t c) (hc0 : 0 ≤ c) (hc : c ≤ 10) (h1 : 0 ≤ t) (h2 : t ≤ Real.pi) :
    Near (L.sin x) (Real.sin t) (c * 3.1416 * U + 2 * U) := by
  obtain ⟨r1, r2, r3⟩ := angle_range hx hc0 hc h1 h2
  obtain ⟨a1, a2⟩ := hL x hx.1 r1 r2
  refine ⟨a1, ?_⟩
  have h3 := Real.abs_sin_sub_sin_le x.rv t
  have h4 := abs_sub_le (L.sin x).rv (Real.sin x.rv) (Real.sin t)
  have e : (1 : ℝ) / 2 ^ 52 = 2 * U := by unfold U; norm_num
  have a2' : |(L.sin x).rv - Real.sin x.rv| ≤ 2 * U := by rw [← e]; exact a2
  linarith

/-- magnitudes that occur for degrees below `2^52` -/
theorem ratio_moderate {m k : ℕ} (hm : 0 < m) (hk : 0 < k) (hmb : m < 2 ^ 53) (hkb : k < 2 ^ 53) :
    1 / 2 ^ 100 ≤ Real.pi * m / k ∧ Real.pi * m / k ≤ 2 ^ 100 := by
  have hp := Real.pi_gt_three
  have hp2 := Real.pi_lt_four
  have m1 : (1 : ℝ) ≤ m := by exact_mod_cast hm
  have k1 : (1 : ℝ) ≤ k := by exact_mod_cast hk
  have m2 : (m : ℝ) ≤ 2 ^ 53 := by exact_mod_cast hmb.le
  have k2 : (k : ℝ) ≤ 2 ^ 53 := by exact_mod_cast hkb.le
  constructor
  · rw [le_div_iff₀ (by linarith)]
    calc (1 : ℝ) / 2 ^ 100 * k ≤ 1 / 2 ^ 100 * 2 ^ 53 := by gcongr
      _ ≤ 3 * 1 := by norm_num
      _ ≤ Real.pi * m := by gcongr
  · rw [div_le_iff₀ (by linarith)]
    calc Real.pi * m ≤ 4 * 2 ^ 53 := by gcongr
      _ ≤ 2 ^ 100 * 1 := by norm_num
      _ ≤ _ := by gcongr

/-- first kind -/
theorem cheb1_pair_close (hL : AccurateTrig L) {n i : ℕ} (hi : 1 ≤ i) (hin : i ≤ n) (hn : n < 2 ^ 52) :
    Near (GaussChebyshevFirstKind.pair n i : F64 × F64).1 (Real.cos (Real.pi * (2 * i - 1) / (2 * n))) (10 * U) ∧
    Rel (GaussChebyshevFirstKind.pair n i : F64 × F64).2 (Real.pi / n) 1.4 := by
  have hU := U_pos
  have n1 : IsNat (ofNat n : F64) n := ofNat_isNat (by omega)
  have i1 : IsNat (ofNat i : F64) i := ofNat_isNat (by omega)
  have t1 := lit_two_isNat.mul i1 (by omega)
  have t2 := t1.sub lit_one_isNat (by omega) (by omega)
  have t3 := lit_two_isNat.mul n1 (by omega)
  have q1 := ratio_moderate (m := 2 * i - 1) (k := 1) (by omega) one_pos (by omega) (by norm_num)
  have q2 := ratio_moderate (m := 2 * i - 1) (k := 2 * n) (by omega) (by omega) (by omega) (by omega)
  have q3 := ratio_moderate (m := 1) (k := n) one_pos (by omega) (by norm_num) (by omega)
  rw [Nat.cast_one, div_one] at q1
  rw [Nat.cast_one, mul_one] at q3
  have m1 := pi_rel.mul t2.rel (pos_moderate q1.1 q1.2).1 (pos_moderate q1.1 q1.2).2 (by norm_num) le_rfl (by norm_num) (by norm_num) (d := 1.361) (by norm_num)
  have hn0 : (n : ℝ) ≠ 0 := by exact_mod_cast (by omega : n ≠ 0)
  have m2 := m1.div t3.rel (by push_cast; positivity) (pos_moderate q2.1 q2.2).1 (pos_moderate q2.1 q2.2).2 (by norm_num) le_rfl (by norm_num) (by norm_num) (d := 2.363) (by norm_num)
  have m3 := pi_rel.div n1.rel hn0 (pos_moderate q3.1 q3.2).1 (pos_moderate q3.1 q3.2).2 (by norm_num) le_rfl (by norm_num) (by norm_num) (d := 1.4) (by norm_num)
  refine ⟨?_, m3⟩
  have e : Real.pi * ((2 * i - 1 : ℕ) : ℝ) / ((2 * n : ℕ) : ℝ) = Real.pi * (2 * i - 1) / (2 * n) := by
    rw [Nat.cast_sub (by omega)]; push_cast; rfl
  rw [e] at m2
  have i2 : (1 : ℝ) ≤ i := by exact_mod_cast hi
  have i3 : (i : ℝ) ≤ n := by exact_mod_cast hin
  have hp := Real.pi_pos
  have c1 := cos_near hL m2 (by norm_num) (by norm_num) (by
    refine div_nonneg (mul_nonneg hp.le (by linarith)) (by linarith)) (by
    rw [div_le_iff₀ (by linarith)]
    exact mul_le_mul_of_nonneg_left (by linarith) hp.le)
  refine Near.mono c1 ?_
  linarith

set_option maxHeartbeats 1000000 in
/-- second kind -/
theorem cheb2_pair_close (hL : AccurateTrig L) (hS : AccurateSin L) {n i : ℕ} (hi : 1 ≤ i) (hin : i ≤ n) (hn : n < 2 ^ 52) :
    Near (GaussChebyshevSecondKind.pair n i : F64 × F64).1 (Real.cos (Real.pi * i / (n + 1))) (13 * U) ∧
    Near (GaussChebyshevSecondKind.pair n i : F64 × F64).2 (Real.pi / (n + 1) * Real.sin (Real.pi * i / (n + 1)) ^ 2) (31 * U * (Real.pi / (n + 1))) := by
  have hU := U_pos
  have hU7 : U ≤ 0.000001 := by unfold U; norm_num
  have n1 : IsNat (ofNat n : F64) n := ofNat_isNat (by omega)
  have i1 : IsNat (ofNat i : F64) i := ofNat_isNat (by omega)
  have n2 := n1.add lit_one_isNat (by omega)
  have n3 : (((n + 1 : ℕ)) : ℝ) = n + 1 := by push_cast; rfl
  have hp := Real.pi_pos
  have i2 : (1 : ℝ) ≤ i := by exact_mod_cast hi
  have i3 : (i : ℝ) ≤ n := by exact_mod_cast hin
  have hn0 : (0 : ℝ) < n + 1 := by positivity
  have q1 := ratio_moderate (m := i) (k := 1) (by omega) one_pos (by omega) (by norm_num)
  have q2 := ratio_moderate (m := i) (k := n + 1) (by omega) (by omega) (by omega) (by omega)
  have q3 := ratio_moderate (m := 1) (k := n + 1) one_pos (by omega) (by norm_num) (by omega)
  rw [Nat.cast_one, div_one] at q1
  rw [n3] at q2
  rw [Nat.cast_one, mul_one, n3] at q3
  have q4 : (1 : ℝ) / 2 ^ 100 ≤ 1 / (n + 1) ∧ (1 : ℝ) / (n + 1) ≤ 2 ^ 100 := by
    constructor
    · apply one_div_le_one_div_of_le hn0
      have : (n : ℝ) ≤ 2 ^ 52 := by exact_mod_cast hn.le
      linarith [show (2 : ℝ) ^ 52 + 1 ≤ 2 ^ 100 by norm_num]
    · rw [div_le_iff₀ hn0]
      have : (1 : ℝ) ≤ 2 ^ 100 := by norm_num
      nlinarith
  have o1 := lit_one_isNat.rel.div n2.rel (by rw [n3]; exact hn0.ne') (by rw [Nat.cast_one, n3]; exact (pos_moderate q4.1 q4.2).1)
    (by rw [Nat.cast_one, n3]; exact (pos_moderate q4.1 q4.2).2) le_rfl le_rfl (by norm_num) (by norm_num) (d := 1.002) (by norm_num)
  rw [Nat.cast_one, n3] at o1
  have m1 := pi_rel.mul i1.rel (pos_moderate q1.1 q1.2).1 (pos_moderate q1.1 q1.2).2 (by norm_num) le_rfl (by norm_num) (by norm_num) (d := 1.361) (by norm_num)
  have e1 : Real.pi * i * (1 / ((n : ℝ) + 1)) = Real.pi * i / (n + 1) := by ring
  have m2 := m1.mul o1 (by rw [e1]; exact (pos_moderate q2.1 q2.2).1) (by rw [e1]; exact (pos_moderate q2.1 q2.2).2) (by norm_num) (by norm_num) (by norm_num) (by norm_num) (d := 3.365) (by norm_num)
  rw [e1] at m2
  have e2 : Real.pi * (1 / ((n : ℝ) + 1)) = Real.pi / (n + 1) := by ring
  have v1 := pi_rel.mul o1 (by rw [e2]; exact (pos_moderate q3.1 q3.2).1) (by rw [e2]; exact (pos_moderate q3.1 q3.2).2) (by norm_num) (by norm_num) (by norm_num) (by norm_num) (d := 2.365) (by norm_num)
  rw [e2] at v1
  have t0 : 0 ≤ Real.pi * i / (n + 1) := by positivity
  have t1 : Real.pi * i / (n + 1) ≤ Real.pi := by
    rw [div_le_iff₀ hn0]
    exact mul_le_mul_of_nonneg_left (by linarith) hp.le
  have c1 := cos_near hL m2 (by norm_num) (by norm_num) t0 t1
  have s1 := sin_near hS m2 (by norm_num) (by norm_num) t0 t1
  refine ⟨Near.mono c1 (by linarith), ?_⟩
  have s2 : Near (L.sin (F64.mul (F64.mul (pi : F64) (ofNat i)) (F64.div (lit 1.0 : F64) (F64.add (ofNat n) (lit 1.0)))))
      (Real.sin (Real.pi * i / (n + 1))) (12.6 * U) := s1.mono (by linarith)
  set V := Real.pi / ((n : ℝ) + 1) with hV
  have hV0 : 0 < V := by positivity
  set s := Real.sin (Real.pi * i / (n + 1)) with hs
  have hsb : |s| ≤ 1 := Real.abs_sin_le_one _
  have hVb : V ≤ 2 ^ 100 := q3.2
  have htiny : (1 : ℝ) / 2 ^ 1075 ≤ 0.001 * (U * V) := by
    have : U * (1 / 2 ^ 100) ≤ U * V := mul_le_mul_of_nonneg_left q3.1 hU.le
    have h2 : (1 : ℝ) / 2 ^ 1075 ≤ 0.001 * (1 / 2 ^ 53 * (1 / 2 ^ 100)) := by norm_num
    unfold U at *
    linarith
  have hUV : U * V ≤ 0.000001 * V := mul_le_mul_of_nonneg_right hU7 hV0.le
  have hUV0 : 0 < U * V := by positivity
  have hUUV : U * (U * V) ≤ 0.000001 * (U * V) := mul_le_mul_of_nonneg_right hU7 hUV0.le
  have w1 := v1.near.mul s2 (A := 1.001 * V) (B := 1.001) (by rw [abs_of_pos hV0]; linarith) (by linarith) (by
    have : (1.001 : ℝ) * 2 ^ 100 * 1.001 ≤ 2 ^ 1023 := by norm_num
    linarith)
  rw [abs_of_pos hV0] at w1
  have w2 := w1.mono (δ := 16.1 * (U * V)) (by linarith)
  have hvs : |V * s| ≤ V := by
    rw [abs_mul, abs_of_pos hV0]
    calc V * |s| ≤ V * 1 := by gcongr
      _ = V := mul_one V
  have w3 := w2.mul s2 (A := 1.001 * V) (B := 1.001) (by linarith) (by linarith) (by
    have : (1.001 : ℝ) * 2 ^ 100 * 1.001 ≤ 2 ^ 1023 := by norm_num
    linarith)
  rw [show V * s * s = V * s ^ 2 by ring] at w3
  refine Near.mono w3 ?_
  linarith

/-! ## spacing -/

theorem sin_ratio {N j : ℕ} (hj : 0 < j) (hjN : j < 2 * N) : (min j (2 * N - j) : ℕ) / (N : ℝ) ≤ Real.sin (Real.pi * j / (2 * N)) := by
  have hN : (0 : ℝ) < N := by exact_mod_cast (by omega : 0 < N)
  have hp := Real.pi_pos
  have key : ∀ k : ℕ, 0 < k → k ≤ N → (k : ℝ) / N ≤ Real.sin (Real.pi * k / (2 * N)) := by
    intro k hk hkN
    have k1 : (k : ℝ) ≤ N := by exact_mod_cast hkN
    have := Real.mul_le_sin (x := Real.pi * k / (2 * N)) (by positivity) (by
      rw [div_le_div_iff₀ (by positivity) (by norm_num)]
      nlinarith)
    refine le_trans (le_of_eq ?_) this
    field_simp
  rcases Nat.lt_or_ge N j with h | h
  · have h1 := key (2 * N - j) (by omega) (by omega)
    have e : Real.pi * ((2 * N - j : ℕ) : ℝ) / (2 * N) = Real.pi - Real.pi * j / (2 * N) := by
      rw [Nat.cast_sub (by omega)]; push_cast; field_simp
    rw [e, Real.sin_pi_sub] at h1
    rwa [Nat.min_eq_right (by omega)]
  · rw [Nat.min_eq_left (by omega)]
    exact key j hj h

theorem cos_gap {N m : ℕ} (hm : 0 < m) (hmN : m + 2 < 2 * N) :
    4 / (N : ℝ) ^ 2 ≤ Real.cos (Real.pi * m / (2 * N)) - Real.cos (Real.pi * (m + 2 : ℕ) / (2 * N)) := by
  have hN : (0 : ℝ) < N := by exact_mod_cast (by omega : 0 < N)
  rw [Real.cos_sub_cos]
  have e1 : (Real.pi * m / (2 * N) + Real.pi * (m + 2 : ℕ) / (2 * N)) / 2 = Real.pi * (m + 1 : ℕ) / (2 * N) := by push_cast; field_simp; ring
  have e2 : (Real.pi * m / (2 * N) - Real.pi * (m + 2 : ℕ) / (2 * N)) / 2 = -(Real.pi * (1 : ℕ) / (2 * N)) := by push_cast; field_simp; ring
  rw [e1, e2, Real.sin_neg]
  have h1 := sin_ratio (N := N) (j := m + 1) (by omega) (by omega)
  have h2 := sin_ratio (N := N) (j := 1) one_pos (by omega)
  have h3 : (2 : ℝ) / N ≤ Real.sin (Real.pi * (m + 1 : ℕ) / (2 * N)) := by
    refine le_trans ?_ h1
    have : 2 ≤ min (m + 1) (2 * N - (m + 1)) := by omega
    have : (2 : ℝ) ≤ (min (m + 1) (2 * N - (m + 1)) : ℕ) := by exact_mod_cast this
    gcongr
  have h4 : (1 : ℝ) / N ≤ Real.sin (Real.pi * (1 : ℕ) / (2 * N)) := by
    refine le_trans ?_ h2
    have : 1 ≤ min 1 (2 * N - 1) := by omega
    have : (1 : ℝ) ≤ (min 1 (2 * N - 1) : ℕ) := by exact_mod_cast this
    gcongr
  have h5 : (2 : ℝ) / N * (1 / N) ≤ Real.sin (Real.pi * (m + 1 : ℕ) / (2 * N)) * Real.sin (Real.pi * (1 : ℕ) / (2 * N)) :=
    mul_le_mul h3 h4 (by positivity) (le_trans (by positivity) h3)
  have e3 : (4 : ℝ) / N ^ 2 = 2 * (2 / N * (1 / N)) := by field_simp; ring
  rw [e3]
  linarith

theorem cos_edge {N m : ℕ} (hm : 0 < m) (hmN : m < 2 * N) :
    1 / (2 * (N : ℝ) ^ 2) ≤ 1 - Real.cos (Real.pi * m / (2 * N)) ∧ 1 / (2 * (N : ℝ) ^ 2) ≤ 1 + Real.cos (Real.pi * m / (2 * N)) := by
  have hN : (0 : ℝ) < N := by exact_mod_cast (by omega : 0 < N)
  have hp := Real.pi_pos
  have key : ∀ k : ℕ, 0 < k → k < 2 * N → 1 / (2 * (N : ℝ) ^ 2) ≤ 1 - Real.cos (Real.pi * k / (2 * N)) := by
    intro k hk hkN
    have h1 := sin_ratio (N := 2 * N) (j := k) hk (by omega)
    have h2 : (1 : ℝ) / (2 * N) ≤ Real.sin (Real.pi * k / (2 * (2 * N : ℕ))) := by
      refine le_trans ?_ h1
      have : 1 ≤ min k (2 * (2 * N) - k) := by omega
      have : (1 : ℝ) ≤ (min k (2 * (2 * N) - k) : ℕ) := by exact_mod_cast this
      push_cast
      gcongr
      exact_mod_cast this
    have e : Real.pi * k / (2 * N) = 2 * (Real.pi * k / (2 * (2 * N : ℕ))) := by push_cast; field_simp
    rw [e, Real.cos_two_mul, Real.cos_sq']
    have h3 : (1 / (2 * (N : ℝ))) ^ 2 ≤ Real.sin (Real.pi * k / (2 * (2 * N : ℕ))) ^ 2 := pow_le_pow_left₀ (by positivity) h2 2
    have e3 : 1 / (2 * (N : ℝ) ^ 2) = 2 * (1 / (2 * (N : ℝ))) ^ 2 := by field_simp
    rw [e3]
    linarith
  refine ⟨key m hm hmN, ?_⟩
  have h1 := key (2 * N - m) (by omega) (by omega)
  have e : Real.pi * ((2 * N - m : ℕ) : ℝ) / (2 * N) = Real.pi - Real.pi * m / (2 * N) := by
    rw [Nat.cast_sub (by omega)]; push_cast; field_simp
  rw [e, Real.cos_pi_sub] at h1
  linarith

/-! ## multiplication is commutative -/

theorem mul_comm' (x y : F64) : F64.mul x y = F64.mul y x := by
  unfold F64.mul
  by_cases h1 : x.isNaN <;> by_cases h2 : y.isNaN <;> simp only [h1, h2, Bool.or_true, Bool.or_false, if_true, Bool.false_eq_true, if_false]
  have hs : (x.sign != y.sign) = (y.sign != x.sign) := by cases x.sign <;> cases y.sign <;> rfl
  have hz : ∀ z : F64, z.isInf = true → z.isZero = false := by
    intro z hz
    by_contra hc
    rw [Bool.not_eq_false] at hc
    unfold F64.isInf at hz
    unfold F64.isZero at hc
    simp_all [F64.infMag]
  rw [hs, mul_comm x.val y.val]
  by_cases h3 : x.isInf <;> by_cases h4 : y.isInf <;> simp only [h3, h4, if_true, Bool.false_eq_true, if_false]
  rw [hz x h3, hz y h4]

end GaussQuad.F64
