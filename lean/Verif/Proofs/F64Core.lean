import Verif.Proofs.F64Series
import Verif.Proofs.LegendreAsymptotic
import Verif.Spec.Trig

/-!
# binary64: `compute_pair` against its exact-arithmetic counterpart
-/

set_option exponentiation.threshold 3000

namespace GaussQuad.F64
open FloatOps Spec Bogaert Asymptotic

section
variable [L : Libm]

theorem lit_exact {q : ℚ} {x : F64} (hx : x.isFinite = true) (h : x.val = q) : Rel (lit q : F64) q 0 := by
  have h2 := val_round_of_repr hx false
  rw [h] at h2
  refine ⟨h2.2, ?_⟩
  have : (round q false).rv = q := by rw [rv, h2.1]
  show |(round q false).rv - q| ≤ _
  rw [this]; simp

theorem lit_one_rel : Rel (lit 1.0 : F64) 1 0 := by
  have h := lit_exact (q := (1.0 : ℚ)) (x := round 1 false) (by decide +kernel) (by decide +kernel)
  have e : ((1.0 : ℚ) : ℝ) = 1 := by norm_num
  rwa [e] at h

theorem lit_two_rel : Rel (lit 2.0 : F64) 2 0 := by
  have h := lit_exact (q := (2.0 : ℚ)) (x := round 2 false) (by decide +kernel) (by decide +kernel)
  have e : ((2.0 : ℚ) : ℝ) = 2 := by norm_num
  rwa [e] at h

theorem lit_half_rel : Rel (lit 0.5 : F64) (1 / 2) 0 := by
  have h := lit_exact (q := (0.5 : ℚ)) (x := round (1 / 2) false) (by decide +kernel) (by decide +kernel)
  have e : ((0.5 : ℚ) : ℝ) = 1 / 2 := by norm_num
  rwa [e] at h

theorem ofNat_rel {n : ℕ} (hn : 0 < n) (hlt : n < 2 ^ 64) : Rel (ofNat n : F64) n 1 := by
  have h1 : (1 : ℝ) ≤ n := by exact_mod_cast hn
  have h2 : (n : ℝ) ≤ 2 ^ 64 := by exact_mod_cast hlt.le
  have := round_rel (q := (n : ℚ)) (s := false) (by
    push_cast; rw [abs_of_nonneg (by positivity)]; exact h2.trans (by norm_num)) (by
    push_cast; rw [abs_of_nonneg (by positivity)]; exact le_trans (by norm_num) h1)
  push_cast at this
  exact this

/-- numbers of moderate size -/
theorem moderate {a : ℝ} (h1 : 1 / 2 ^ 200 ≤ a) (h2 : a ≤ 2 ^ 200) : 1 / 2 ^ 900 ≤ |a| ∧ |a| ≤ 2 ^ 1015 := by
  have h0 : 0 ≤ a := le_trans (by positivity) h1
  rw [abs_of_nonneg h0]
  exact ⟨le_trans (by norm_num) h1, h2.trans (by norm_num)⟩

/-- `sin` of a float close to a real number -/
theorem sin_rel (hL : AccurateTrig L) {x : F64} {t c : ℝ} (hx : Rel x t c) (hc0 : 0 ≤ c) (hc : c ≤ 100) (h1 : 1 / 2 ^ 200 ≤ t) (h2 : t ≤ 1.6) :
    Rel (FloatOps.sin x) (Real.sin t) (1.7 * c + 2.001) := by
  have hU := U_pos
  have hU1 : U ≤ 1 / 1000000000 := by unfold U; norm_num
  have ht0 : 0 < t := lt_of_lt_of_le (by positivity) h1
  obtain ⟨hs, hts⟩ := sin_lower ht0 h2
  have hd := hx.2
  rw [abs_of_pos ht0] at hd
  have hcU : c * U ≤ 1 / 2 := half_le (by linarith)
  have hlow : t / 2 ≤ x.rv := by have := (abs_le.1 hd).1; nlinarith
  have hhigh : x.rv ≤ t + 0.1 := by
    have := (abs_le.1 hd).2
    have h5 : c * U ≤ 100 * (1 / 1000000000) := mul_le_mul hc hU1 hU.le (by norm_num)
    have : c * U * t ≤ 100 * (1 / 1000000000) * 1.6 := mul_le_mul h5 h2 ht0.le (by norm_num)
    linarith
  obtain ⟨hf, he⟩ := hL.sin x hx.1 (by
    refine le_trans ?_ hlow
    refine le_trans ?_ (div_le_div_of_nonneg_right h1 (by norm_num))
    norm_num) (by linarith [hhigh, show x.rv = (x.val : ℝ) from rfl])
  refine ⟨hf, ?_⟩
  change |(L.sin x).rv - Real.sin t| ≤ _
  have hts' : t ≤ 1.7 * Real.sin t := by rwa [div_le_iff₀ hs] at hts
  have hdiff : |Real.sin x.rv - Real.sin t| ≤ 1.7 * c * U * Real.sin t := by
    have := Real.abs_sin_sub_sin_le x.rv t
    refine this.trans (hd.trans ?_)
    have : c * U * t ≤ c * U * (1.7 * Real.sin t) := by gcongr
    linarith
  have hsx : |Real.sin x.rv| ≤ Real.sin t + 1.7 * c * U * Real.sin t := by
    have := abs_sub_abs_le_abs_sub (Real.sin x.rv) (Real.sin t)
    rw [abs_of_pos hs] at this
    linarith
  have he' : |(L.sin x).rv - Real.sin x.rv| ≤ 2 * U * (Real.sin t + 1.7 * c * U * Real.sin t) := by
    refine he.trans ?_
    have e : (1 : ℝ) / 2 ^ 52 = 2 * U := by unfold U; norm_num
    rw [e]
    exact mul_le_mul_of_nonneg_left hsx (by positivity)
  have h3 := abs_sub_le (L.sin x).rv (Real.sin x.rv) (Real.sin t)
  rw [abs_of_pos hs]
  have hq : 2 * (1.7 * c * U) ≤ 0.001 := by nlinarith
  have hUs : 0 ≤ U * Real.sin t := by positivity
  nlinarith

end

/-- the numbers that occur in `compute_pair`, in exact arithmetic -/
structure CoreSizes (N nu b : ℝ) : Prop where
  hN1 : 101.5 ≤ N
  hN2 : N ≤ 2 ^ 65
  hnu1 : 2 ≤ nu
  hnu2 : 1 / N * nu ≤ 1.6
  hb1 : 1 / 2 ^ 70 ≤ b
  hb2 : b ≤ 1

namespace CoreSizes
variable {N nu b : ℝ}

theorem facts (h : CoreSizes N nu b) : let w := 1 / N; let t := w * nu; let s := Real.sin t; let q := w * w * (nu / s)
    (1 / 2 ^ 65 ≤ w ∧ w ≤ 0.00986) ∧ (1 / 2 ^ 64 ≤ t ∧ t ≤ 1.6) ∧ (0 < s ∧ 1 / 2 ^ 66 ≤ s ∧ s ≤ 1) ∧ (1 ≤ nu / s ∧ nu / s ≤ 2 ^ 66) ∧
    (1 / 2 ^ 65 ≤ q ∧ q ≤ 0.0168) ∧ nu ≤ 2 ^ 66 := by
  obtain ⟨h1, h2, h3, h4, h5, h6⟩ := h
  intro w t s q
  have hN0 : 0 < N := by linarith
  have hw : 0 < w := by positivity
  have hw1 : 1 / 2 ^ 65 ≤ w := one_div_le_one_div_of_le hN0 h2
  have hw2 : w ≤ 0.00986 := by
    show 1 / N ≤ _
    rw [div_le_iff₀ hN0]; linarith
  have ht1 : 1 / 2 ^ 64 ≤ t := by
    show _ ≤ w * nu
    calc (1 : ℝ) / 2 ^ 64 = 1 / 2 ^ 65 * 2 := by norm_num
      _ ≤ w * nu := by gcongr
  have ht2 : t ≤ 1.6 := h4
  have ht0 : 0 < t := lt_of_lt_of_le (by positivity) ht1
  obtain ⟨hs0, hs1⟩ := sin_lower ht0 ht2
  have hs2 : s ≤ 1 := Real.sin_le_one t
  have hst : s ≤ t := Real.sin_le ht0.le
  have hts : 1 ≤ t / s := by rw [le_div_iff₀ hs0]; linarith
  have hs3 : t / 1.7 ≤ s := by
    change t / s ≤ 1.7 at hs1
    rw [div_le_iff₀ hs0] at hs1; rw [div_le_iff₀ (by norm_num)]; linarith
  have eN : nu / s = N * (t / s) := by
    show nu / s = N * (1 / N * nu / s); field_simp
  have eq : q = w * (t / s) := by show w * w * (nu / s) = w * (w * nu / s); ring
  have hnu : nu ≤ 2 ^ 66 := by
    have : nu = N * t := by show nu = N * (1 / N * nu); field_simp
    rw [this]
    calc N * t ≤ 2 ^ 65 * 1.6 := by gcongr
      _ ≤ 2 ^ 66 := by norm_num
  refine ⟨⟨hw1, hw2⟩, ⟨ht1, ht2⟩, ⟨hs0, ?_, hs2⟩, ⟨?_, ?_⟩, ⟨?_, ?_⟩, hnu⟩
  · refine le_trans ?_ hs3
    rw [le_div_iff₀ (by norm_num)]
    refine le_trans ?_ ht1
    norm_num
  · rw [eN]
    calc (1 : ℝ) = 1 * 1 := by norm_num
      _ ≤ N * (t / s) := mul_le_mul (by linarith) hts (by norm_num) hN0.le
  · rw [eN]
    calc N * (t / s) ≤ 2 ^ 65 * 1.7 := mul_le_mul h2 hs1 (by linarith) (by norm_num)
      _ ≤ 2 ^ 66 := by norm_num
  · rw [eq]
    calc (1 : ℝ) / 2 ^ 65 = 1 / 2 ^ 65 * 1 := by norm_num
      _ ≤ w * (t / s) := mul_le_mul hw1 hts (by norm_num) hw.le
  · rw [eq]
    calc w * (t / s) ≤ 0.00986 * 1.7 := mul_le_mul hw2 hs1 (by linarith) (by norm_num)
      _ ≤ 0.0168 := by norm_num

end CoreSizes

variable [L : Libm]

/-- the intermediate quantities of `compute_pair` -/
theorem core_inputs (hL : AccurateTrig L) {n : ℕ} (hn : 100 < n) (hlt : n < 2 ^ 64) {nu b : F64} {ν β : ℝ} (hnu : Rel nu ν 5) (hb : Rel b β 7)
    (hS : CoreSizes (n + 1 / 2) ν β) :
    let w : ℝ := 1 / (n + 1 / 2)
    let t := w * ν
    let s := Real.sin t
    let w' : F64 := (lit 1.0) /ᶠ (ofNat n +ᶠ (lit 0.5))
    let t' := w' *ᶠ nu
    let o' := nu /ᶠ FloatOps.sin t'
    let q' := w' *ᶠ w' *ᶠ o'
    Rel w' w 3.01 ∧ Rel t' t 9.02 ∧ Near (t' *ᶠ t') (t * t) ((50 : ℚ) * U) ∧ Rel (b *ᶠ o') (β * (ν / s)) 31.4 ∧
    Rel q' (w * w * (ν / s)) 31.41 ∧ Rel (q' *ᶠ q') (w * w * (ν / s) * (w * w * (ν / s))) 63.83 := by
  intro w t s w' t' o' q'
  obtain ⟨⟨w1, w2⟩, ⟨t1, t2⟩, ⟨s0, s1, s2⟩, ⟨o1, o2⟩, ⟨q1, q2⟩, nu2⟩ := hS.facts
  obtain ⟨hN1, hN2, hnu1, hnu2, hb1, hb2⟩ := hS
  have hw0 : 0 < w := lt_of_lt_of_le (by positivity) w1
  have ht0 : 0 < t := lt_of_lt_of_le (by positivity) t1
  -- w
  have hsum : Rel (ofNat n +ᶠ lit 0.5 : F64) (n + 1 / 2) 2.001 :=
    Rel.add_pos (ofNat_rel (by omega) hlt) (lit_half_rel.mono (by norm_num)) (by positivity) (by norm_num) (hN2.trans (by norm_num)) (by norm_num)
      (by norm_num) (by norm_num)
  have hw : Rel w' w 3.01 := by
    have m := moderate (a := w) (le_trans (by norm_num) w1) (w2.trans (by norm_num))
    exact Rel.div lit_one_rel hsum (by linarith) m.1 m.2 (by norm_num) (by norm_num) (by norm_num) (by norm_num) (by norm_num)
  -- theta
  have ht : Rel t' t 9.02 := by
    have m := moderate (a := t) (le_trans (by norm_num) t1) (t2.trans (by norm_num))
    exact Rel.mul hw hnu m.1 m.2 (by norm_num) (by norm_num) (by norm_num) (by norm_num) (by norm_num)
  have htt0 : 1 / 2 ^ 128 ≤ t * t := by
    calc (1 : ℝ) / 2 ^ 128 = 1 / 2 ^ 64 * (1 / 2 ^ 64) := by norm_num
      _ ≤ t * t := by gcongr
  have htt1 : t * t ≤ 2.56 := by nlinarith
  have hx : Rel (t' *ᶠ t') (t * t) 19.05 := by
    have m := moderate (a := t * t) (le_trans (by norm_num) htt0) (htt1.trans (by norm_num))
    exact Rel.mul ht ht m.1 m.2 (by norm_num) (by norm_num) (by norm_num) (by norm_num) (by norm_num)
  have hx' : Near (t' *ᶠ t') (t * t) ((50 : ℚ) * U) := by
    refine hx.near.mono ?_
    rw [abs_of_nonneg (by positivity)]
    have := U_pos
    push_cast
    nlinarith
  -- nu / sin
  have hsin : Rel (FloatOps.sin t') s 17.336 :=
    (sin_rel hL ht (by norm_num) (by norm_num) (le_trans (by norm_num) t1) t2).mono (by norm_num)
  have ho : Rel o' (ν / s) 23.338 := by
    have m := moderate (a := ν / s) (le_trans (by norm_num) o1) (o2.trans (by norm_num))
    exact Rel.div hnu hsin s0.ne' m.1 m.2 (by norm_num) (by norm_num) (by norm_num) (by norm_num) (by norm_num)
  have hB : Rel (b *ᶠ o') (β * (ν / s)) 31.4 := by
    have m := moderate (a := β * (ν / s)) (by
        calc (1 : ℝ) / 2 ^ 200 ≤ 1 / 2 ^ 70 * 1 := by norm_num
          _ ≤ β * (ν / s) := mul_le_mul hb1 o1 (by norm_num) (le_trans (by positivity) hb1)) (by
        calc β * (ν / s) ≤ 1 * 2 ^ 66 := mul_le_mul hb2 o2 (by linarith) (by norm_num)
          _ ≤ 2 ^ 200 := by norm_num)
    exact Rel.mul hb ho m.1 m.2 (by norm_num) (by norm_num) (by norm_num) (by norm_num) (by norm_num)
  have hww0 : 1 / 2 ^ 130 ≤ w * w := by
    calc (1 : ℝ) / 2 ^ 130 = 1 / 2 ^ 65 * (1 / 2 ^ 65) := by norm_num
      _ ≤ w * w := by gcongr
  have hww : Rel (w' *ᶠ w') (w * w) 7.03 := by
    have m := moderate (a := w * w) (le_trans (by norm_num) hww0) (by nlinarith)
    exact Rel.mul hw hw m.1 m.2 (by norm_num) (by norm_num) (by norm_num) (by norm_num) (by norm_num)
  have hq : Rel q' (w * w * (ν / s)) 31.41 := by
    have m := moderate (a := w * w * (ν / s)) (le_trans (by norm_num) q1) (q2.trans (by norm_num))
    exact Rel.mul hww ho m.1 m.2 (by norm_num) (by norm_num) (by norm_num) (by norm_num) (by norm_num)
  have hqq0 : 1 / 2 ^ 130 ≤ w * w * (ν / s) * (w * w * (ν / s)) := by
    calc (1 : ℝ) / 2 ^ 130 = 1 / 2 ^ 65 * (1 / 2 ^ 65) := by norm_num
      _ ≤ w * w * (ν / s) * (w * w * (ν / s)) := by gcongr
  have hqq : Rel (q' *ᶠ q') (w * w * (ν / s) * (w * w * (ν / s))) 63.83 := by
    have m := moderate (a := w * w * (ν / s) * (w * w * (ν / s))) (le_trans (by norm_num) hqq0) (by
      calc w * w * (ν / s) * (w * w * (ν / s)) ≤ 0.0168 * 0.0168 := by
            have : 0 ≤ w * w * (ν / s) := le_trans (by positivity) q1
            gcongr
        _ ≤ 2 ^ 200 := by norm_num)
    exact Rel.mul hq hq m.1 m.2 (by norm_num) (by norm_num) (by norm_num) (by norm_num) (by norm_num)
  exact ⟨hw, ht, hx', hB, hq, hqq⟩

/-- the bracket `s1 + q (s2 + q s3)` -/
theorem bracket_near {q s1 s2 s3 : F64} {Q S1 S2 S3 : ℝ} (hq : Near q Q (0.0185 * U)) (hQ : |Q| ≤ 0.00029) {A E : ℝ} (hA : A ≤ 0.2) (hE0 : 0 ≤ E) (hE : E ≤ 10)
    (h1 : Near s1 S1 (E * U)) (h2 : Near s2 S2 (10 * U)) (h3 : Near s3 S3 (10 * U)) (b1 : |S1| ≤ A) (b2 : |S2| ≤ 0.1) (b3 : |S3| ≤ 0.1) :
    Near (s1 +ᶠ q *ᶠ (s2 +ᶠ q *ᶠ s3)) (S1 + Q * (S2 + Q * S3)) ((E + A + 0.01) * U) ∧ |S1 + Q * (S2 + Q * S3)| ≤ A + 0.0001 := by
  have hU := U_pos
  have hU1 : U ≤ 1 / 10 ^ 15 := U_le_eta
  have ht := tiny_le
  have e3 : Near (q *ᶠ s3) (Q * S3) (0.01 * U) := by
    refine (hq.mul h3 (A := 0.0003) (B := 0.11) (by linarith) (by linarith) (by norm_num)).mono ?_
    linarith
  have n3 : |Q * S3| ≤ 0.00003 := by
    rw [abs_mul]
    calc |Q| * |S3| ≤ 0.00029 * 0.1 := mul_le_mul hQ b3 (abs_nonneg _) (by norm_num)
      _ ≤ _ := by norm_num
  have n2 : |S2 + Q * S3| ≤ 0.10003 := (abs_add_le _ _).trans (by linarith)
  have e2 : Near (s2 +ᶠ q *ᶠ s3) (S2 + Q * S3) (10.2 * U) := by
    refine (h2.add e3 (A := 0.11) (by linarith) (by norm_num)).mono ?_
    linarith
  have e4 : Near (q *ᶠ (s2 +ᶠ q *ᶠ s3)) (Q * (S2 + Q * S3)) (0.006 * U) := by
    refine (hq.mul e2 (A := 0.0003) (B := 0.11) (by linarith) (by linarith) (by norm_num)).mono ?_
    linarith
  have n4 : |Q * (S2 + Q * S3)| ≤ 0.00003 := by
    rw [abs_mul]
    calc |Q| * |S2 + Q * S3| ≤ 0.00029 * 0.10003 := mul_le_mul hQ n2 (abs_nonneg _) (by norm_num)
      _ ≤ _ := by norm_num
  have n5 : |S1 + Q * (S2 + Q * S3)| ≤ A + 0.00003 := (abs_add_le _ _).trans (by linarith)
  have hA0 : 0 ≤ A := (abs_nonneg _).trans b1
  refine ⟨(h1.add e4 (A := A + 0.0001) (by
    have : E * U ≤ 10 * U := by gcongr
    linarith) (by refine le_trans (add_le_add_left hA _) (by norm_num))).mono ?_, n5.trans (by linarith)⟩
  have : U * (A + 0.0001) = A * U + 0.0001 * U := by ring
  rw [this, add_mul, add_mul]
  linarith

/-- a large number plus a small correction -/
theorem Rel.add_small {x y : F64} {X Y c e d f : ℝ} (hx : Rel x X c) (hy : Near y Y (e * U * X)) (hX : 0 < X) (hY : |Y| ≤ d * X) (hc : 0 ≤ c) (he : 0 ≤ e)
    (hbig : X ≤ 2 ^ 200) (hce : c + e ≤ 1000) (hd : d ≤ 1 / 2) (hf0 : 0 ≤ f) (hf : (c + e) * (1 + 1 / 10 ^ 15) + 1 + d ≤ f * (1 - d)) : Rel (x +ᶠ y) (X + Y) f := by
  have hU := U_pos
  have hU1 : U ≤ 1 / 10 ^ 15 := U_le_eta
  have hx' := hx.2
  rw [abs_of_pos hX] at hx'
  have h1 : |X + Y| ≤ (1 + d) * X := (abs_add_le _ _).trans (by rw [abs_of_pos hX]; linarith)
  have hYl := (_root_.abs_le.1 hY).1
  have h2 : (1 - d) * X ≤ |X + Y| := le_trans (by linarith) (le_abs_self (X + Y))
  have hUX : 0 < U * X := mul_pos hU hX
  have h3 : (c + e) * (U * X) ≤ (c + e) * (1 / 10 ^ 15 * X) := by gcongr
  have hd0 : 0 ≤ d := by
    by_contra h
    have : d * X < 0 := mul_neg_of_neg_of_pos (not_le.1 h) hX
    linarith [abs_nonneg Y]
  have hadd := Near.add (⟨hx.1, hx'⟩ : Near x X (c * U * X)) hy (A := (1 + d + (c + e) * (1 / 10 ^ 15)) * X) (by linarith) (by
    calc (1 + d + (c + e) * (1 / 10 ^ 15)) * X ≤ (1 + 1 / 2 + 1000 * (1 / 10 ^ 15)) * 2 ^ 200 := by gcongr
      _ ≤ 2 ^ 1023 := by norm_num)
  refine hadd.rel ?_
  calc c * U * X + e * U * X + U * ((1 + d + (c + e) * (1 / 10 ^ 15)) * X) = ((c + e) * (1 + 1 / 10 ^ 15) + 1 + d) * (U * X) := by ring
    _ ≤ f * (1 - d) * (U * X) := by gcongr
    _ = f * U * ((1 - d) * X) := by ring
    _ ≤ f * U * |X + Y| := by gcongr

set_option maxHeartbeats 1000000 in
theorem core_close (hL : AccurateTrig L) {n : ℕ} (hn : 100 < n) (hlt : n < 2 ^ 64) {nu b : F64} {ν β : ℝ} (hnu : Rel nu ν 5) (hb : Rel b β 7)
    (hS : CoreSizes (n + 1 / 2) ν β) :
    Rel (computePairCore n nu b).theta (computePairCore n ν β).theta 10.2 ∧ Rel (computePairCore n nu b).weight (computePairCore n ν β).weight 38 := by
  have hU := U_pos
  have hU1 : U ≤ 1 / 10 ^ 15 := U_le_eta
  have htiny := tiny_le
  obtain ⟨⟨w1, w2⟩, ⟨t1, t2⟩, ⟨s0, s1, s2⟩, ⟨o1, o2⟩, ⟨q1, q2⟩, nu2⟩ := hS.facts
  obtain ⟨hw, ht, hx, hB, hq, hqq⟩ := core_inputs hL hn hlt hnu hb hS
  obtain ⟨hN1, hN2, hnu1, hnu2, hb1, hb2⟩ := hS
  simp only [computePairCore, real_add, real_mul, real_div, real_ofNat, real_lit_one, real_lit_two, real_lit_half, real_sin]
  generalize hw' : (lit 1.0 /ᶠ (ofNat n +ᶠ lit 0.5) : F64) = w' at *
  generalize ht' : w' *ᶠ nu = t' at *
  generalize ho' : nu /ᶠ FloatOps.sin t' = o' at *
  generalize hq' : w' *ᶠ w' *ᶠ o' = q' at *
  generalize hwr : (1 : ℝ) / (n + 1 / 2) = w at *
  generalize htr : w * ν = t at *
  generalize hor : ν / Real.sin t = o at *
  generalize hqr : w * w * o = q at *
  have hw0 : 0 < w := lt_of_lt_of_le (by positivity) w1
  have ht0 : 0 < t := lt_of_lt_of_le (by positivity) t1
  have hq0 : 0 < q := lt_of_lt_of_le (by positivity) q1
  have hB0 : 1 / 2 ^ 70 ≤ β * o := by
    calc (1 : ℝ) / 2 ^ 70 = 1 / 2 ^ 70 * 1 := by ring
      _ ≤ β * o := mul_le_mul hb1 o1 (by norm_num) (le_trans (by positivity) hb1)
  have hB1 : β * o ≤ 2 ^ 66 := by
    calc β * o ≤ 1 * 2 ^ 66 := mul_le_mul hb2 o2 (by linarith) (by norm_num)
      _ = _ := by ring
  have hBp : 0 < β * o := lt_of_lt_of_le (by positivity) hB0
  have hxb : |t * t| ≤ ((2.56 : ℚ) : ℝ) := by
    rw [abs_of_nonneg (by positivity)]; push_cast; nlinarith
  have hqq2 : q * q ≤ 0.00029 := by
    calc q * q ≤ 0.0168 * 0.0168 := by gcongr
      _ ≤ _ := by norm_num
  have hqq3 : q * q ≤ 0.000283 := by
    calc q * q ≤ 0.0168 * 0.0168 := by gcongr
      _ ≤ _ := by norm_num
  have hqqN : Near (q' *ᶠ q') (q * q) (0.0185 * U) := by
    refine hqq.near.mono ?_
    rw [abs_of_nonneg (by positivity)]
    calc 63.83 * U * (q * q) ≤ 63.83 * U * (0.000283) := by gcongr
      _ ≤ _ := by linarith
  have hqqA : |q * q| ≤ 0.00029 := by rwa [abs_of_nonneg (by positivity)]
  -- the two brackets
  obtain ⟨a1, a2⟩ := sf1t_near hx hxb
  obtain ⟨a3, a4⟩ := sf2t_near hx hxb
  obtain ⟨a5, a6⟩ := sf3t_near hx hxb
  obtain ⟨c1, c2⟩ := wsf1t_near hx hxb
  obtain ⟨c3, c4⟩ := wsf2t_near hx hxb
  obtain ⟨c5, c6⟩ := wsf3t_near hx hxb
  push_cast at a1 a2 a3 a4 a5 a6 c1 c2 c3 c4 c5 c6
  obtain ⟨p1, p2⟩ := bracket_near hqqN hqqA (A := 0.054) (E := 1) (by norm_num) (by norm_num) (by norm_num) a1 (a3.mono (by linarith))
    (a5.mono (by linarith)) (by linarith) (by linarith) (by linarith)
  obtain ⟨r1, r2⟩ := bracket_near hqqN hqqA (A := 0.2) (E := 10) (by norm_num) (by norm_num) (by norm_num) c1 (c3.mono (by linarith))
    (c5.mono (by linarith)) (by linarith) (by linarith) (by linarith)
  generalize hS' : sf1t (t' *ᶠ t') +ᶠ q' *ᶠ q' *ᶠ (sf2t (t' *ᶠ t') +ᶠ q' *ᶠ q' *ᶠ sf3t (t' *ᶠ t')) = S' at *
  generalize hT' : wsf1t (t' *ᶠ t') +ᶠ q' *ᶠ q' *ᶠ (wsf2t (t' *ᶠ t') +ᶠ q' *ᶠ q' *ᶠ wsf3t (t' *ᶠ t')) = T' at *
  generalize hSr : sf1t (t * t) + q * q * (sf2t (t * t) + q * q * sf3t (t * t)) = S at *
  generalize hTr : wsf1t (t * t) + q * q * (wsf2t (t * t) + q * q * wsf3t (t * t)) = T at *
  constructor
  · have htq0 : 1 / 2 ^ 130 ≤ t * q := by
      calc (1 : ℝ) / 2 ^ 130 ≤ 1 / 2 ^ 64 * (1 / 2 ^ 65) := by norm_num
        _ ≤ t * q := by gcongr
    have htq1 : t * q ≤ 0.0269 := by
      calc t * q ≤ 1.6 * 0.0168 := by gcongr
        _ ≤ _ := by norm_num
    have htq : Rel (t' *ᶠ q') (t * q) 41.44 := by
      have m := moderate (a := t * q) (le_trans (by norm_num) htq0) (htq1.trans (by norm_num))
      exact Rel.mul ht hq m.1 m.2 (by norm_num) (by norm_num) (by norm_num) (by norm_num) (by norm_num)
    have htqN : Near (t' *ᶠ q') (t * q) (1.12 * U) := by
      refine htq.near.mono ?_
      rw [abs_of_nonneg (by positivity)]
      calc 41.44 * U * (t * q) ≤ 41.44 * U * 0.0269 := by gcongr
        _ ≤ _ := by linarith
    have hc : Near (t' *ᶠ q' *ᶠ S') (t * q * S) (0.1 * U) := by
      refine (htqN.mul p1 (A := 0.027) (B := 0.0542) (by rw [abs_of_nonneg (by positivity)]; linarith) (by linarith) (by norm_num)).mono ?_
      linarith
    have hcA : |t * q * S| ≤ 0.00073 * ν := by
      rw [abs_mul, abs_of_nonneg (by positivity : 0 ≤ t * q)]
      calc t * q * |S| ≤ 0.0269 * (0.054 + 0.0001) := mul_le_mul htq1 p2 (abs_nonneg _) (by norm_num)
        _ ≤ 0.00073 * 2 := by norm_num
        _ ≤ _ := by gcongr
    have hsum : Rel (nu +ᶠ t' *ᶠ q' *ᶠ S') (ν + t * q * S) 6.07 := by
      refine Rel.add_small hnu (e := 0.05) (d := 0.00073) (hc.mono ?_) (by linarith) hcA (by norm_num) (by norm_num) (nu2.trans (by norm_num)) (by norm_num) (by norm_num)
        (by norm_num) (by norm_num)
      have : 0 ≤ U * (ν - 2) := mul_nonneg hU.le (by linarith)
      linarith
    have hcl := (_root_.abs_le.1 hcA)
    have m := moderate (a := w * (ν + t * q * S)) (by
      calc (1 : ℝ) / 2 ^ 200 ≤ 1 / 2 ^ 65 * 1 := by norm_num
        _ ≤ w * (ν + t * q * S) := mul_le_mul w1 (by linarith) (by norm_num) hw0.le) (by
      calc w * (ν + t * q * S) ≤ 0.00986 * 2 ^ 67 := mul_le_mul w2 (by linarith) (by linarith) (by norm_num)
        _ ≤ 2 ^ 200 := by norm_num)
    exact Rel.mul hw hsum m.1 m.2 (by norm_num) (by norm_num) (by norm_num) (by norm_num) (by norm_num)
  · generalize hBr : β * o = B at *
    generalize hBf : b *ᶠ o' = B' at *
    have hBq0 : 1 / 2 ^ 200 ≤ B * (q * q) := by
      calc (1 : ℝ) / 2 ^ 200 = 1 / 2 ^ 70 * (1 / 2 ^ 65 * (1 / 2 ^ 65)) := by norm_num
        _ ≤ B * (q * q) := by gcongr
    have hBq1 : B * (q * q) ≤ 0.00029 * B := by
      rw [mul_comm]; gcongr
    have hBq : Rel (B' *ᶠ (q' *ᶠ q')) (B * (q * q)) 96.24 := by
      have m := moderate (a := B * (q * q)) hBq0 (by
        calc B * (q * q) ≤ 2 ^ 66 * 0.00029 := by gcongr
          _ ≤ _ := by norm_num)
      exact Rel.mul hB hqq m.1 m.2 (by norm_num) (by norm_num) (by norm_num) (by norm_num) (by norm_num)
    have hBqN : Near (B' *ᶠ (q' *ᶠ q')) (B * (q * q)) (0.028 * U * B) := by
      refine hBq.near.mono ?_
      rw [abs_of_nonneg (by positivity)]
      calc 96.24 * U * (B * (q * q)) ≤ 96.24 * U * (0.00029 * B) := by gcongr
        _ ≤ 0.028 * U * B := by
          have : 0 < U * B := by positivity
          linarith
    have hUB : 0 < U * B := by positivity
    have hc : Near (B' *ᶠ (q' *ᶠ q') *ᶠ T') (B * (q * q) * T) (0.01 * U * B) := by
      refine (hBqN.mul r1 (A := 0.00030 * B) (B := 0.21) (by
          rw [abs_of_nonneg (by positivity)]
          have : U * B ≤ 1 / 10 ^ 15 * B := by gcongr
          linarith) (by linarith) (by
          calc 0.00030 * B * 0.21 ≤ 0.00030 * 2 ^ 66 * 0.21 := by gcongr
            _ ≤ _ := by norm_num)).mono ?_
      have ht2 : (1 : ℝ) / 2 ^ 1075 ≤ 1 / 10 ^ 6 * U * B := by
        calc (1 : ℝ) / 2 ^ 1075 ≤ 1 / 10 ^ 6 * U * (1 / 2 ^ 70) := by unfold U; norm_num
          _ ≤ _ := by gcongr
      linarith
    have hcA : |B * (q * q) * T| ≤ 0.0001 * B := by
      rw [abs_mul, abs_of_nonneg (by positivity : 0 ≤ B * (q * q))]
      calc B * (q * q) * |T| ≤ 0.00029 * B * (0.2 + 0.0001) := mul_le_mul hBq1 r2 (abs_nonneg _) (by positivity)
        _ ≤ _ := by linarith
    have hsum : Rel (B' +ᶠ B' *ᶠ (q' *ᶠ q') *ᶠ T') (B + B * (q * q) * T) 32.43 :=
      Rel.add_small hB (e := 0.01) (d := 0.0001) hc hBp hcA (by norm_num) (by norm_num) (hB1.trans (by norm_num)) (by norm_num) (by norm_num)
        (by norm_num) (by norm_num)
    have hcl := (_root_.abs_le.1 hcA)
    have h2w : Rel (lit 2.0 *ᶠ w') (2 * w) 4.02 := by
      have m := moderate (a := 2 * w) (by
        calc (1 : ℝ) / 2 ^ 200 ≤ 2 * (1 / 2 ^ 65) := by norm_num
          _ ≤ _ := by gcongr) (by linarith)
      exact Rel.mul lit_two_rel hw m.1 m.2 (by norm_num) (by norm_num) (by norm_num) (by norm_num) (by norm_num)
    have hD0 : 0 < B + B * (q * q) * T := by linarith
    have hD1 : 1 / 2 ^ 71 ≤ B + B * (q * q) * T := by
      have : (1 : ℝ) / 2 ^ 71 = 1 / 2 * (1 / 2 ^ 70) := by norm_num
      rw [this]; linarith
    have m := moderate (a := 2 * w / (B + B * (q * q) * T)) (by
      rw [le_div_iff₀ hD0]
      calc 1 / 2 ^ 200 * (B + B * (q * q) * T) ≤ 1 / 2 ^ 200 * 2 ^ 67 := by gcongr; linarith
        _ ≤ 2 * (1 / 2 ^ 65) := by norm_num
        _ ≤ _ := by gcongr) (by
      rw [div_le_iff₀ hD0]
      calc 2 * w ≤ 2 ^ 200 * (1 / 2 ^ 71) := by linarith
        _ ≤ _ := by gcongr)
    exact Rel.div h2w hsum hD0.ne' m.1 m.2 (by norm_num) (by norm_num) (by norm_num) (by norm_num) (by norm_num)

end GaussQuad.F64
