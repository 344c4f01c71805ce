import Verif.Proofs.LegendreRoots

/-!
# The pairs of `compute_pair` against the true roots and weights
-/

namespace GaussQuad.LegBes
open Phase LegendrePoly LegendreOde Ode Bogaert FloatOps

/-! ## the pairs computed by the code -/

theorem combine {x ω r1 r2 d e2 : ℝ} (hω : 0 < ω) (h : x * ((1 + d) * (1 + e2)) = ω * (r1 * r2)) (h1 : |r1 - 1| ≤ 23 / 10 ^ 17)
    (h2 : |r2 - 1| ≤ 23 / 10 ^ 17) (h3 : |d| ≤ 261 / 10 ^ 18) (h4 : |e2| ≤ 11 / 10 ^ 17) : |x - ω| ≤ 1 / 10 ^ 15 * ω := by
  have a1 := abs_le.1 h1
  have a2 := abs_le.1 h2
  have a3 := abs_le.1 h3
  have a4 := abs_le.1 h4
  have b1 : |r1 * r2 - 1| ≤ 47 / 10 ^ 17 := by
    have e : r1 * r2 - 1 = (r1 - 1) * (r2 - 1) + (r1 - 1) + (r2 - 1) := by ring
    have h5 : |(r1 - 1) * (r2 - 1)| ≤ 23 / 10 ^ 17 * (23 / 10 ^ 17) := by rw [abs_mul]; gcongr
    rw [e]
    have := abs_add_le ((r1 - 1) * (r2 - 1) + (r1 - 1)) (r2 - 1)
    have := abs_add_le ((r1 - 1) * (r2 - 1)) (r1 - 1)
    norm_num at *; linarith
  have b2 : |(1 + d) * (1 + e2) - 1| ≤ 38 / 10 ^ 17 := by
    have e : (1 + d) * (1 + e2) - 1 = d * e2 + d + e2 := by ring
    have h5 : |d * e2| ≤ 261 / 10 ^ 18 * (11 / 10 ^ 17) := by rw [abs_mul]; gcongr
    rw [e]
    have := abs_add_le (d * e2 + d) e2
    have := abs_add_le (d * e2) d
    norm_num at *; linarith
  generalize (1 + d) * (1 + e2) = z at *
  generalize r1 * r2 = r at *
  have hz : 0.9 ≤ z := by have := (abs_le.1 b2).1; norm_num at this ⊢; linarith
  have e : (x - ω) * z = ω * (r - z) := by rw [sub_mul, h]; ring
  have h6 : |r - z| ≤ 85 / 10 ^ 17 := by
    have := abs_sub_le r 1 z
    rw [abs_sub_comm 1 z] at this
    norm_num at *; linarith
  have h7 : |x - ω| * z ≤ ω * (85 / 10 ^ 17) := by
    have := congrArg abs e
    rw [abs_mul, abs_mul, abs_of_pos hω, abs_of_pos (by linarith : 0 < z)] at this
    rw [this]; gcongr
  have h8 : |x - ω| * 0.9 ≤ ω * (85 / 10 ^ 17) := le_trans (by gcongr) h7
  norm_num at *; linarith

theorem core_theta {n : ℕ} (hn : 101 ≤ n) {α : ℝ} (b : ℝ) (hs : 0 < Real.sin α) :
    (computePairCore n (NN n * α) b).theta = α * (1 + 1 / NN n ^ 2 * (α / Real.sin α) *
        (sf1t (α * α) + 1 / NN n ^ 2 * (α / Real.sin α) ^ 2 * (sf2t (α * α) + 1 / NN n ^ 2 * (α / Real.sin α) ^ 2 * sf3t (α * α)))) := by
  have hN := NN_ge hn
  have hN0 : 0 < NN n := by linarith
  simp only [computePairCore, real_add, real_mul, real_div, real_ofNat, real_lit_one, real_lit_half, real_sin]
  rw [show (n : ℝ) + 1 / 2 = NN n from rfl, show 1 / NN n * (NN n * α) = α by field_simp]
  generalize sf1t (α * α) = s1
  generalize sf2t (α * α) = s2
  generalize sf3t (α * α) = s3
  generalize Real.sin α = s at *
  field_simp

theorem core_weight {n : ℕ} (hn : 101 ≤ n) {α b : ℝ} (h0 : 0 < α) (hb : 0 < b) (hs : 0 < Real.sin α)
    (hE : 0 < 1 + 1 / NN n ^ 2 * (α / Real.sin α) ^ 2 *
        (wsf1t (α * α) + 1 / NN n ^ 2 * (α / Real.sin α) ^ 2 * (wsf2t (α * α) + 1 / NN n ^ 2 * (α / Real.sin α) ^ 2 * wsf3t (α * α)))) :
    (computePairCore n (NN n * α) b).weight * (NN n * (b * (NN n * α)) * (1 + 1 / NN n ^ 2 * (α / Real.sin α) ^ 2 *
        (wsf1t (α * α) + 1 / NN n ^ 2 * (α / Real.sin α) ^ 2 * (wsf2t (α * α) + 1 / NN n ^ 2 * (α / Real.sin α) ^ 2 * wsf3t (α * α))))) =
      2 * Real.sin α := by
  have hN := NN_ge hn
  have hN0 : 0 < NN n := by linarith
  simp only [computePairCore, real_add, real_mul, real_div, real_ofNat, real_lit_one, real_lit_two, real_lit_half, real_sin]
  rw [show (n : ℝ) + 1 / 2 = NN n from rfl, show 1 / NN n * (NN n * α) = α by field_simp]
  have e : 1 / NN n * (1 / NN n) * (NN n * α / Real.sin α) * (1 / NN n * (1 / NN n) * (NN n * α / Real.sin α)) =
      1 / NN n ^ 2 * (α / Real.sin α) ^ 2 := by field_simp
  rw [e]
  generalize 1 / NN n ^ 2 * (α / Real.sin α) ^ 2 = q at *
  generalize wsf1t (α * α) + q * (wsf2t (α * α) + q * wsf3t (α * α)) = S at *
  generalize Real.sin α = s at *
  have e2 : b * (NN n * α / s) + b * (NN n * α / s) * q * S = b * (NN n * α / s) * (1 + q * S) := by ring
  rw [e2]
  field_simp

theorem ratio2 {a t p p' X N Z : ℝ} (ha : 0 < a) (q1 : 0.9999 ≤ t) (q2 : t ≤ 1.0001) (hX : 0.63 ≤ X ^ 2)
    (h1 : |t * p + a * X| ≤ 841 / 10 ^ 19 * a) (h2 : |p' - p| ≤ 1 / 10 ^ 27 * a) (hN : a ^ 2 = N) (hZ : X ^ 2 = Z) :
    |t ^ 2 * p' ^ 2 / (N * Z) - 1| ≤ 23 / 10 ^ 17 := by
  have hX1 : 0.79 ≤ |X| := by
    apply abs_le_of_sq_le_sq' _ (abs_nonneg _) |>.2
    rw [sq_abs]; norm_num at hX ⊢; linarith
  subst hN hZ
  have hpos : 0 < a ^ 2 * X ^ 2 := by positivity
  obtain ⟨η, hη⟩ : ∃ η, η = t * p' + a * X := ⟨_, rfl⟩
  have h3 : |η| ≤ 85 / 10 ^ 18 * a := by
    have e : η = (t * p + a * X) + t * (p' - p) := by rw [hη]; ring
    have h4 : |t * (p' - p)| ≤ 1.0001 * (1 / 10 ^ 27 * a) := by
      rw [abs_mul, abs_of_pos (by linarith : 0 < t)]; gcongr
    rw [e]
    have := abs_add_le (t * p + a * X) (t * (p' - p))
    norm_num at *; linarith
  have e : t ^ 2 * p' ^ 2 - a ^ 2 * X ^ 2 = η * (η - 2 * (a * X)) := by rw [hη]; ring
  rw [div_sub_one hpos.ne', e, abs_div, abs_of_pos hpos, div_le_iff₀ hpos, abs_mul]
  have h5 : |η - 2 * (a * X)| ≤ a * (2.01 * |X|) := by
    have := abs_sub η (2 * (a * X))
    rw [abs_mul, abs_mul, abs_two, abs_of_pos ha] at this
    have h6 : 85 / 10 ^ 18 * a ≤ a * (0.01 * |X|) := by
      rw [mul_comm]; gcongr; norm_num at hX1 ⊢; linarith
    nlinarith
  calc |η| * |η - 2 * (a * X)| ≤ 85 / 10 ^ 18 * a * (a * (2.01 * |X|)) := by gcongr
    _ = (85 / 10 ^ 18 * 2.01) * (a ^ 2 * (|X| * 1)) := by ring
    _ ≤ (23 / 10 ^ 17 * 0.79) * (a ^ 2 * (|X| * 1)) := mul_le_mul_of_nonneg_right (by norm_num) (by positivity)
    _ = 23 / 10 ^ 17 * (a ^ 2 * (|X| * 0.79)) := by ring
    _ ≤ 23 / 10 ^ 17 * (a ^ 2 * (|X| * |X|)) := by gcongr
    _ = _ := by rw [abs_mul_abs_self]; ring

theorem final_eq {x N b nu E sa sT t1 J ω st p : ℝ} (hnu : 0 < nu) (hN : 0 < N) (hsa : 0 < sa) (hst : 0 < st) (hJ : 0 < J)
    (h1 : x * (N * (b * nu) * E) = 2 * sa) (h2 : ω * p ^ 2 = 2 * st) :
    x * ((1 + (b / J - 1)) * (1 + (sT * t1 / sa * E - 1))) = ω * (sT / st * (t1 * p ^ 2 / (N * (nu * J)))) := by
  have e1 : x * ((1 + (b / J - 1)) * (1 + (sT * t1 / sa * E - 1))) = (x * (N * (b * nu) * E)) * (sT * t1) / (sa * (N * nu * J)) := by
    field_simp; ring
  have e2 : ω * (sT / st * (t1 * p ^ 2 / (N * (nu * J)))) = (ω * p ^ 2) * (sT * t1) / (st * (N * nu * J)) := by
    field_simp
  rw [e1, e2, h1, h2]
  field_simp

/-- Accuracy of one asymptotic pair. -/
theorem pair_accuracy {n : ℕ} (hn : 101 ≤ n) {k : ℕ} (hk : 1 ≤ k) (h2k : 2 * k ≤ n + 1) {nu b : ℝ} (hnu : besselJ0Zero k = some nu)
    (hb : besselJ1Squared k = some b) :
    ∃ θ : ℝ, 0 < θ ∧ θ < Real.pi ∧ P n (Real.cos θ) = 0 ∧ |(computePairCore n nu b).theta - θ| ≤ 75 / 10 ^ 18 ∧
      |(computePairCore n nu b).weight - legOmega n (Real.cos θ)| ≤ 1 / 10 ^ 15 * legOmega n (Real.cos θ) ∧
      |θ * NN n - Real.pi * (k - 1 / 4)| ≤ 0.07 := by
  obtain ⟨f1, f2, f3, f4, f5, f6⟩ := McMahon.bessel_accuracy hk hnu hb
  have hN := NN_ge hn
  have hN0 : 0 < NN n := by linarith
  have hp1 := Real.pi_gt_d6
  have hp2 := Real.pi_lt_d6
  have hclose := Asymptotic.nu_close hk hnu
  have h2k' : 2 * (k : ℝ) ≤ n + 1 := by exact_mod_cast h2k
  have hα : nu / NN n ≤ 1.5714 := by
    rw [div_le_iff₀ hN0]
    have := (abs_le.1 hclose).2
    rw [NN] at hN ⊢
    norm_num at *
    nlinarith
  have hα0 : 0 < nu / NN n := div_pos (by linarith) hN0
  have hle : (nu / NN n) ^ 2 ≤ 5 / 2 := by norm_num at hα; nlinarith
  have hbox := abox hn f6 hle
  have hs : 0 < Real.sin (nu / NN n) := (Asymptotic.sin_lower hα0 (hα.trans (by norm_num))).1
  obtain ⟨θ, hθI, hθ0, hθ1⟩ := exists_root hn f6 hle f1 f2 f4 f5
  obtain ⟨g1, g2, g3, g4⟩ := near hn f6 hle f1 hθI
  obtain ⟨d1, d2⟩ := del_le hn f1
  have hdist : |θ - T (nu / NN n) (yy n)| ≤ del n nu := abs_le.2 ⟨by linarith [hθI.1], by linarith [hθI.2]⟩
  have hθpos : 0 < θ := lt_of_lt_of_le (by positivity) g1
  have hroot : P n (Real.cos θ) = 0 := (mul_eq_zero.1 hθ0).resolve_left (Real.sqrt_pos.2 g3).ne'
  refine ⟨θ, hθpos, by norm_num at g2; linarith, hroot, ?_, ?_, ?_⟩
  · -- the angle
    have hnode := hbox.node_close
    rw [W_yy hn] at hnode
    have e := core_theta hn b hs
    rw [mulN hn f6 hle] at e
    rw [e]
    have := abs_sub_le (nu / NN n * (1 + 1 / NN n ^ 2 * (nu / NN n / Real.sin (nu / NN n)) *
        (sf1t (nu / NN n * (nu / NN n)) + 1 / NN n ^ 2 * (nu / NN n / Real.sin (nu / NN n)) ^ 2 *
        (sf2t (nu / NN n * (nu / NN n)) + 1 / NN n ^ 2 * (nu / NN n / Real.sin (nu / NN n)) ^ 2 * sf3t (nu / NN n * (nu / NN n))))))
      (T (nu / NN n) (yy n)) θ
    rw [abs_sub_comm (T _ _) θ] at this
    norm_num at *
    linarith
  · -- the weight
    have hw := hbox.weight_close
    rw [W_yy hn] at hw
    have hT1 := hbox.T1_pos
    have hsT := sin_T_pos hbox
    obtain ⟨q1, q2⟩ := sqrt_T1 hn (α_pos hn f6 hle) hle
    have hu1 := u1_close hn f6 hle f1 f2
    have hbpos := Asymptotic.b_pos hk hb
    have hform := core_weight hn (α_pos hn f6 hle) hbpos hs
    rw [mulN hn f6 hle] at hform
    have hom := omega_at_root (by omega) g3 hθ0
    have hJ0 : 0 < Bessel.J1 nu ^ 2 := by
      by_contra hc
      have : Bessel.J1 nu ^ 2 = 0 := le_antisymm (not_lt.1 hc) (sq_nonneg _)
      rw [this] at f4; norm_num at f4
    have hω : 0 < legOmega n (Real.cos θ) := by
      have h1 : 0 < legOmega n (Real.cos θ) * u1 n θ ^ 2 := by rw [hom]; linarith
      by_contra hc
      have := mul_nonpos_of_nonpos_of_nonneg (not_lt.1 hc) (sq_nonneg (u1 n θ))
      linarith
    have hr1 : |Real.sin (T (nu / NN n) (yy n)) / Real.sin θ - 1| ≤ 23 / 10 ^ 17 := by
      rw [div_sub_one g3.ne', abs_div, abs_of_pos g3, div_le_iff₀ g3]
      have h1 : |Real.sin (T (nu / NN n) (yy n)) - Real.sin θ| ≤ del n nu := by
        refine (Real.abs_sin_sub_sin_le _ _).trans ?_
        rw [abs_sub_comm]; exact hdist
      refine h1.trans ?_
      have h2 := (T_ge hn f6 hle).2
      have h3 : del n nu ≤ 134 / 10 ^ 18 * (nu / NN n) := by
        rw [del, mul_div_assoc', div_le_div_iff_of_pos_right hN0]
        norm_num at *
        linarith
      have h4 : 0.9998 * (nu / NN n) ≤ θ := by
        have := hθI.1
        norm_num at *; linarith
      rw [div_le_iff₀ (by norm_num)] at g4
      norm_num at *; linarith
    have hr2 : |√(T1 (nu / NN n) (yy n)) ^ 2 * u1 n θ ^ 2 / (NN n * (nu * Bessel.J1 nu ^ 2)) - 1| ≤ 23 / 10 ^ 17 := by
      have hX : (√nu * Bessel.J1 nu) ^ 2 = nu * Bessel.J1 nu ^ 2 := by rw [mul_pow, Real.sq_sqrt (by linarith)]
      have ha : 0 < √(NN n) := Real.sqrt_pos.2 hN0
      have haq : √(NN n) ^ 2 = NN n := Real.sq_sqrt hN0.le
      exact ratio2 ha q1 q2 (by rw [hX]; exact f4) hu1 hθ1 haq hX
    have hw1 := (abs_le.1 hw).1
    have hEpos : 0 < 1 + 1 / NN n ^ 2 * (nu / NN n / Real.sin (nu / NN n)) ^ 2 *
        (wsf1t (nu / NN n * (nu / NN n)) + 1 / NN n ^ 2 * (nu / NN n / Real.sin (nu / NN n)) ^ 2 *
          (wsf2t (nu / NN n * (nu / NN n)) + 1 / NN n ^ 2 * (nu / NN n / Real.sin (nu / NN n)) ^ 2 * wsf3t (nu / NN n * (nu / NN n)))) := by
      by_contra hc
      have h1 : 0 ≤ Real.sin (T (nu / NN n) (yy n)) * T1 (nu / NN n) (yy n) / Real.sin (nu / NN n) :=
        div_nonneg (mul_nonneg hsT.le (by linarith)) hs.le
      have := mul_nonpos_of_nonneg_of_nonpos h1 (not_lt.1 hc)
      have hq : (11 / 10 ^ 17 : ℝ) < 1 / 2 := by norm_num
      linarith
    have hform := hform hEpos
    refine combine (d := b / Bessel.J1 nu ^ 2 - 1) (e2 := _) hω ?_ hr1 hr2 ?_ hw
    · rw [Real.sq_sqrt (by linarith)]
      generalize 1 + 1 / NN n ^ 2 * (nu / NN n / Real.sin (nu / NN n)) ^ 2 *
        (wsf1t (nu / NN n * (nu / NN n)) + 1 / NN n ^ 2 * (nu / NN n / Real.sin (nu / NN n)) ^ 2 *
          (wsf2t (nu / NN n * (nu / NN n)) + 1 / NN n ^ 2 * (nu / NN n / Real.sin (nu / NN n)) ^ 2 * wsf3t (nu / NN n * (nu / NN n)))) = E at *
      exact final_eq (by linarith) hN0 hs g3 hJ0 hform hom
    · rw [div_sub_one hJ0.ne', abs_div, abs_of_pos hJ0, div_le_iff₀ hJ0]
      exact f3
  · have h1 := T_near hbox
    rw [W_yy hn] at h1
    have e : θ * NN n - Real.pi * (k - 1 / 4) = (θ - T (nu / NN n) (yy n)) * NN n + (T (nu / NN n) (yy n) - nu / NN n) * NN n +
        (nu - Real.pi * (k - 1 / 4)) := by
      have := mulN hn f6 hle
      linarith
    have h2 : |(θ - T (nu / NN n) (yy n)) * NN n| ≤ 44 / 10 ^ 16 := by
      rw [abs_mul, abs_of_pos hN0]
      have := hdist.trans d1
      rwa [le_div_iff₀ hN0] at this
    have h3 : |(T (nu / NN n) (yy n) - nu / NN n) * NN n| ≤ 0.01 := by
      rw [abs_mul, abs_of_pos hN0]
      calc _ ≤ 1 / NN n ^ 2 * NN n := by gcongr
        _ = 1 / NN n := by field_simp
        _ ≤ 0.01 := by rw [div_le_iff₀ hN0]; norm_num at hN ⊢; linarith
    rw [e]
    have := abs_add_le ((θ - T (nu / NN n) (yy n)) * NN n + (T (nu / NN n) (yy n) - nu / NN n) * NN n) (nu - Real.pi * (k - 1 / 4))
    have := abs_add_le ((θ - T (nu / NN n) (yy n)) * NN n) ((T (nu / NN n) (yy n) - nu / NN n) * NN n)
    norm_num at *
    linarith

end GaussQuad.LegBes
