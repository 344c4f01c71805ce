import Verif.Proofs.BesselCode
import Verif.Proofs.LegendreRoots
import Verif.Proofs.LegendreAsymptotic
import Mathlib.Analysis.Calculus.LocalExtr.Basic

/-!
# The values of `bessel_j0_zero` belong to true zeros of `J₀`, and to the right ones

A value of `φ = √s J₀(s)` below `ε` forces a zero nearby; a gap estimate for `φ'' = -q φ` shows that no zero is skipped.
-/

namespace GaussQuad.BesselTrue
open Bessel Bogaert McMahon LegBes

/-- two zeros of a solution of `u'' = -Q u` are at least `2 / √K` apart -/
theorem gap {u u1 Q : ℝ → ℝ} {a b K : ℝ} (hab : a < b) (hu : ∀ x ∈ Set.Icc a b, HasDerivAt u (u1 x) x)
    (hu1 : ∀ x ∈ Set.Icc a b, HasDerivAt u1 (-(Q x * u x)) x) (hQ : ∀ x ∈ Set.Icc a b, |Q x| ≤ K)
    (ua : u a = 0) (ub : u b = 0) (hb : u1 a ≠ 0 ∨ u1 b ≠ 0) : 4 ≤ K * (b - a) ^ 2 := by
  have hcont : ContinuousOn u (Set.Icc a b) := fun x hx => (hu x hx).continuousAt.continuousWithinAt
  have haI : a ∈ Set.Icc a b := ⟨le_rfl, hab.le⟩
  have hbI : b ∈ Set.Icc a b := ⟨hab.le, le_rfl⟩
  have hK0 : 0 ≤ K := (abs_nonneg _).trans (hQ a haI)
  obtain ⟨z, hz, hmax⟩ := isCompact_Icc.exists_isMaxOn ⟨a, haI⟩ hcont.abs
  have hle : ∀ x ∈ Set.Icc a b, |u x| ≤ |u z| := fun x hx => hmax hx
  have hM : 0 < |u z| := by
    rcases (abs_nonneg (u z)).lt_or_eq with h | h
    · exact h
    · exfalso
      have h0 : ∀ x ∈ Set.Icc a b, u x = 0 := fun x hx => abs_eq_zero.1 (le_antisymm (h ▸ hle x hx) (abs_nonneg _))
      have hv : ∀ c ∈ Set.Icc a b, u1 c = 0 := fun c hc =>
        (uniqueDiffOn_Icc hab c hc).eq_deriv _ (hu c hc).hasDerivWithinAt ((hasDerivWithinAt_const c (Set.Icc a b) (0 : ℝ)).congr h0 (h0 c hc))
      exact hb.elim (fun h => h (hv a haI)) (fun h => h (hv b hbI))
  have hza : a < z := lt_of_le_of_ne hz.1 (by rintro rfl; rw [ua, abs_zero] at hM; exact lt_irrefl _ hM)
  have hzb : z < b := lt_of_le_of_ne hz.2 (by rintro rfl; rw [ub, abs_zero] at hM; exact lt_irrefl _ hM)
  have hz1 : u1 z = 0 := by
    have hloc : IsLocalMax (fun x => u x ^ 2) z := by
      filter_upwards [Icc_mem_nhds hza hzb] with x hx
      exact sq_le_sq.2 (hle x hx)
    have hd := hloc.hasDerivAt_eq_zero ((hu z hz).pow 2)
    have : u z ≠ 0 := abs_pos.1 hM
    simpa [this] using hd
  have key : ∀ c ∈ Set.Icc a b, u c = 0 → 1 ≤ K * (z - c) ^ 2 := by
    intro c hc huc
    have hsub : Set.uIcc z c ⊆ Set.Icc a b := Set.uIcc_subset_Icc hz hc
    have b1 : ∀ x ∈ Set.uIcc z c, |u1 x| ≤ K * |u z| * |z - c| := by
      intro x hx
      have := (convex_uIcc z c).norm_image_sub_le_of_norm_hasDerivWithin_le (C := K * |u z|) (f := u1)
        (fun x hx => (hu1 x (hsub hx)).hasDerivWithinAt) (fun x hx => by
          rw [Real.norm_eq_abs, abs_neg, abs_mul]
          exact mul_le_mul (hQ x (hsub hx)) (hle x (hsub hx)) (abs_nonneg _) hK0) Set.left_mem_uIcc hx
      rw [hz1, sub_zero, Real.norm_eq_abs, Real.norm_eq_abs] at this
      refine this.trans ?_
      have h2 : |x - z| ≤ |z - c| := by
        have := Set.abs_sub_left_of_mem_uIcc hx
        rwa [abs_sub_comm c z] at this
      gcongr
    have b2 := (convex_uIcc z c).norm_image_sub_le_of_norm_hasDerivWithin_le (f := u)
        (fun x hx => (hu x (hsub hx)).hasDerivWithinAt) (fun x hx => b1 x hx) Set.right_mem_uIcc Set.left_mem_uIcc
    rw [huc, sub_zero, Real.norm_eq_abs, Real.norm_eq_abs] at b2
    have e : K * |u z| * |z - c| * |z - c| = |u z| * (K * (z - c) ^ 2) := by rw [← sq_abs (z - c)]; ring
    rw [e] at b2
    exact le_of_mul_le_mul_left (by rwa [mul_one]) hM
  have h1 := key a haI ua
  have h2 := key b hbI ub
  rcases le_total (z - a) (b - z) with h | h
  · have : (z - a) ^ 2 ≤ ((b - a) / 2) ^ 2 := by apply pow_le_pow_left₀ <;> linarith
    nlinarith
  · have : (z - b) ^ 2 ≤ ((b - a) / 2) ^ 2 := by rw [← neg_sq]; apply pow_le_pow_left₀ <;> linarith
    nlinarith

theorem abs_qB_le {s : ℝ} (hs : 1 ≤ s) : |qB s| ≤ 1.25 := by
  have : 1 / (4 * s ^ 2) ≤ 1 / (4 * 1 ^ 2) := by gcongr
  have h0 : 0 ≤ 1 / (4 * s ^ 2) := by positivity
  rw [qB, abs_of_nonneg (by linarith)]
  norm_num at this ⊢; linarith

theorem φ_eq_zero {s : ℝ} (hs : 0 < s) : φ s = 0 ↔ J0 s = 0 := by
  rw [φ, mul_eq_zero]
  exact ⟨fun h => h.resolve_left (Real.sqrt_pos.2 hs).ne', Or.inr⟩

/-- no zero of `J₀` up to 1 -/
theorem J0_pos {s : ℝ} (h0 : 0 ≤ s) (h1 : s < 1) : 0 < J0 s := by
  have := lip h0 (fun x _ => J0_hasDerivAt x) (C := 1) (fun x hx => by rw [abs_neg]; exact abs_J1_le hx.1)
  rw [J0_zero, sub_zero, one_mul] at this
  have := (abs_le.1 this).1
  linarith

/-- no two zeros of `J₀` in `[1, ∞)` closer than 1.78, if `J₁` does not vanish at one of them -/
theorem J0_gap {a b : ℝ} (ha : 1 ≤ a) (hab : a < b) (h1 : J0 a = 0) (h2 : J0 b = 0) (h3 : J1 a ≠ 0 ∨ J1 b ≠ 0) : 1.78 ≤ b - a := by
  have := gap hab (fun x hx => φ_hasDerivAt (by linarith [hx.1])) (fun x hx => φ1_hasDerivAt (by linarith [hx.1]))
    (fun x hx => abs_qB_le (by linarith [hx.1])) ((φ_eq_zero (by linarith)).2 h1) ((φ_eq_zero (by linarith)).2 h2)
    (by
      rw [φ1, φ1, h1, h2]
      simpa [Real.sqrt_eq_zero', not_le.2 (show 0 < b by linarith), not_le.2 (show 0 < a by linarith)] using h3)
  by_contra hc
  push Not at hc
  norm_num at this hc
  nlinarith

theorem rel_aux {nu z i j : ℝ} (h9 : 0 ≤ j) (hnu0 : 0 < nu) (h1 : |z * j - nu * i| ≤ 70 / 10 ^ 18) (h2 : 0.629 ≤ z * j)
    (h3 : |z - nu| ≤ 104 / 10 ^ 18 * nu) : |i - j| ≤ 22 / 10 ^ 17 * j := by
  have e : nu * (i - j) = -(z * j - nu * i) + (z - nu) * j := by ring
  have h7 : |(z - nu) * j| ≤ 104 / 10 ^ 18 * nu * j := by
    rw [abs_mul, abs_of_nonneg h9]
    exact mul_le_mul_of_nonneg_right h3 h9
  have h8 : |nu * (i - j)| ≤ 70 / 10 ^ 18 + 104 / 10 ^ 18 * nu * j := by
    rw [e]
    exact (abs_add_le _ _).trans (add_le_add (by rwa [abs_neg]) h7)
  have h10 : 0.628 ≤ nu * j := by
    have : (z - nu) * j ≤ 104 / 10 ^ 18 * nu * j := (le_abs_self _).trans h7
    norm_num at *; linarith
  rw [abs_mul, abs_of_pos hnu0] at h8
  have h11 : nu * |i - j| ≤ nu * (22 / 10 ^ 17 * j) := by
    refine h8.trans ?_
    norm_num at *; linarith
  exact le_of_mul_le_mul_left h11 hnu0

/-- a true zero near each computed one, with `J₁²` there -/
theorem true_zero {k : ℕ} (hk : 1 ≤ k) {nu b : ℝ} (hnu : besselJ0Zero k = some nu) (hb : besselJ1Squared k = some b) :
    ∃ z, J0 z = 0 ∧ 0 < z ∧ |nu - z| ≤ 422 / 10 ^ 17 ∧ |nu - z| ≤ 104 / 10 ^ 18 * nu ∧ J1 z ≠ 0 ∧ |b - J1 z ^ 2| ≤ 5 / 10 ^ 16 * J1 z ^ 2 := by
  obtain ⟨h1, h2, h3, h4, h5, h6⟩ := bessel_accuracy hk hnu hb
  have hnu0 : 0 < nu := by linarith
  obtain ⟨ε, hε⟩ : ∃ ε, ε = min (331 / 10 ^ 17) (81 / 10 ^ 18 * nu) := ⟨_, rfl⟩
  have e1 : ε ≤ 331 / 10 ^ 17 := hε ▸ min_le_left _ _
  have e2 : ε ≤ 81 / 10 ^ 18 * nu := hε ▸ min_le_right _ _
  have e0 : 0 < ε := by rw [hε]; exact lt_min (by norm_num) (by positivity)
  have e3 : |φ nu| ≤ ε := by rw [hε]; exact le_min h1 h2
  have hs := Real.sqrt_pos.2 hnu0
  have hss : √nu * √nu = nu := Real.mul_self_sqrt hnu0.le
  -- the derivative at `nu`
  have hφ1 : φ1 nu = φ nu / (2 * nu) - √nu * J1 nu := by
    rw [φ1, φ]
    congr 1
    generalize J0 nu = j
    rw [div_eq_div_iff (by positivity) (by positivity)]
    linear_combination (-2 * j) * hss
  have hJ : (√nu * J1 nu) ^ 2 = nu * J1 nu ^ 2 := by rw [mul_pow, Real.sq_sqrt hnu0.le]
  have hJ1 : 0.7937 ≤ |√nu * J1 nu| := by
    apply abs_le_of_sq_le_sq' _ (abs_nonneg _) |>.2
    rw [sq_abs, hJ]; norm_num at h4 ⊢; linarith
  have hJ2 : |√nu * J1 nu| ≤ 0.81 := by
    apply abs_le_of_sq_le_sq _ (by norm_num)
    rw [hJ]; norm_num at h5 ⊢; linarith
  have hsm : |φ nu / (2 * nu)| ≤ 81 / 10 ^ 18 / 2 := by
    rw [abs_div, abs_of_pos (by linarith : 0 < 2 * nu), div_le_iff₀ (by linarith)]
    linarith
  have hu1 : 0.793 ≤ |φ1 nu| ∧ |φ1 nu| ≤ 0.82 := by
    rw [hφ1]
    have a1 := abs_sub_abs_le_abs_sub (√nu * J1 nu) (φ nu / (2 * nu))
    have a2 := abs_sub (φ nu / (2 * nu)) (√nu * J1 nu)
    rw [abs_sub_comm] at a1
    generalize |φ nu / (2 * nu) - √nu * J1 nu| = y at *
    constructor
    · norm_num at *; linarith
    · norm_num at *; linarith
  have hδ : 0 < 1.27 * ε := by linarith
  have hδ1 : 1.27 * ε ≤ 1 / 10 ^ 14 := by norm_num at *; linarith
  have hpos : ∀ x ∈ Set.Icc (nu - 1.27 * ε) (nu + 1.27 * ε), 1 ≤ x := fun x hx => by
    have := hx.1; norm_num at *; linarith
  have hcc : ε + 1.25 * (1.27 * ε) * (2 * (ε + |φ1 nu| * (1.27 * ε))) * (1.27 * ε) ≤ |φ1 nu| * (1.27 * ε) := by
    have b1 : |φ1 nu| * (1.27 * ε) ≤ 0.82 * (1.27 * ε) := mul_le_mul_of_nonneg_right hu1.2 hδ.le
    have b2 : 0.793 * (1.27 * ε) ≤ |φ1 nu| * (1.27 * ε) := mul_le_mul_of_nonneg_right hu1.1 hδ.le
    have b3 : 1.25 * (1.27 * ε) * (2 * (ε + |φ1 nu| * (1.27 * ε))) * (1.27 * ε) ≤
      1.25 * (1.27 * ε) * (2 * (ε + 0.82 * (1.27 * ε))) * (1.27 * ε) := by gcongr
    have b4 : ε * ε ≤ 1 / 10 ^ 20 := by
      calc ε * ε ≤ 331 / 10 ^ 17 * (331 / 10 ^ 17) := by gcongr
        _ ≤ _ := by norm_num
    have b5 : ε * ε * ε ≤ 1 / 10 ^ 20 * ε := by gcongr
    norm_num at *
    nlinarith
  obtain ⟨z, hz, z0, z1⟩ := root_near (u := φ) (u1 := φ1) (Q := qB) (s := nu) hδ (fun x hx => φ_hasDerivAt (by linarith [hpos x hx]))
    (fun x hx => φ1_hasDerivAt (by linarith [hpos x hx])) (fun x hx => abs_qB_le (hpos x hx)) e3 (by
      calc 1.25 * (1.27 * ε) ^ 2 ≤ 1.25 * (1 / 10 ^ 14) ^ 2 := by gcongr
        _ ≤ _ := by norm_num) hcc
  have hz0 : 0 < z := by linarith [hpos z hz]
  have hdist : |nu - z| ≤ 1.27 * ε := abs_le.2 ⟨by linarith [hz.2], by linarith [hz.1]⟩
  have J0z := (φ_eq_zero hz0).1 z0
  have hz1 : φ1 z = -(√z * J1 z) := by rw [φ1, J0z]; simp
  have hz2 : φ1 z ^ 2 = z * J1 z ^ 2 := by rw [hz1, neg_sq, mul_pow, Real.sq_sqrt hz0.le]
  have hd1 : |φ1 z - φ1 nu| ≤ 1 / 10 ^ 18 := by
    refine z1.trans ?_
    calc 1.25 * (1.27 * ε) * (2 * (ε + |φ1 nu| * (1.27 * ε))) ≤ 1.25 * (1 / 10 ^ 14) * (2 * (331 / 10 ^ 17 + 0.82 * (1 / 10 ^ 14))) := by
          gcongr; exact hu1.2
      _ ≤ _ := by norm_num
  -- the two values of `s J₁²`
  obtain ⟨x, hx⟩ : ∃ x, x = √nu * J1 nu := ⟨_, rfl⟩
  have hy : |φ1 z + x| ≤ 42 / 10 ^ 18 := by
    have e : φ1 z + x = (φ1 z - φ1 nu) + φ nu / (2 * nu) := by rw [hφ1, hx]; ring
    rw [e]
    refine (abs_add_le _ _).trans ((add_le_add hd1 hsm).trans (by norm_num))
  rw [← hx] at hJ hJ1 hJ2
  have hzz : |z * J1 z ^ 2 - nu * J1 nu ^ 2| ≤ 70 / 10 ^ 18 := by
    rw [← hz2, ← hJ, show φ1 z ^ 2 - x ^ 2 = (φ1 z + x) * ((φ1 z + x) - 2 * x) by ring, abs_mul]
    have : |(φ1 z + x) - 2 * x| ≤ 1.63 := by
      refine (abs_sub _ _).trans ?_
      rw [abs_mul, abs_two]
      norm_num at *; linarith
    calc _ ≤ 42 / 10 ^ 18 * 1.63 := mul_le_mul hy this (abs_nonneg _) (by norm_num)
      _ ≤ _ := by norm_num
  have hJz : 0.629 ≤ z * J1 z ^ 2 := by have := (abs_le.1 hzz).1; norm_num at *; linarith
  have hzl : |z - nu| ≤ 104 / 10 ^ 18 * nu := by
    rw [abs_sub_comm]; refine hdist.trans ?_
    clear hcc z1 hzz
    norm_num at *; linarith
  have hrel := rel_aux (sq_nonneg (J1 z)) (by linarith) hzz hJz hzl
  refine ⟨z, J0z, hz0, hdist.trans ?_, by rwa [abs_sub_comm], ?_, ?_⟩
  · clear hcc z1 hzz; norm_num at *; linarith
  · intro h; rw [h] at hJz; norm_num at hJz
  · have h7 : J1 nu ^ 2 ≤ (1 + 22 / 10 ^ 17) * J1 z ^ 2 := by have := (abs_le.1 hrel).2; linarith
    have h8 := abs_sub_le b (J1 nu ^ 2) (J1 z ^ 2)
    have h9 : 0 ≤ J1 z ^ 2 := sq_nonneg _
    clear hz2 hzz hJz hJ h4 h5
    generalize J1 z ^ 2 = j at *
    generalize J1 nu ^ 2 = i at *
    calc _ ≤ _ := h8.trans (add_le_add h3 hrel)
      _ ≤ 261 / 10 ^ 18 * ((1 + 22 / 10 ^ 17) * j) + 22 / 10 ^ 17 * j := by gcongr
      _ = (261 / 10 ^ 18 * (1 + 22 / 10 ^ 17) + 22 / 10 ^ 17) * j := by ring
      _ ≤ _ := mul_le_mul_of_nonneg_right (by norm_num) h9

/-- the zeros are numbered correctly: exactly `k` zeros of `J₀` in `(0, z]` -/
theorem count_zeros {z : ℕ → ℝ} (hz : ∀ k, 1 ≤ k → J0 (z k) = 0 ∧ 0 < z k ∧ J1 (z k) ≠ 0 ∧ |z k - Real.pi * (k - 1 / 4)| ≤ 0.06) :
    ∀ k, 1 ≤ k → {x | 0 < x ∧ x ≤ z k ∧ J0 x = 0} = (Finset.image z (Finset.Icc 1 k) : Set ℝ) ∧
      Set.InjOn z (Finset.Icc 1 k : Set ℕ) ∧ ∀ j, 1 ≤ j → j < k → z j < z k := by
  have hp1 := Real.pi_gt_d2
  have hp2 := Real.pi_lt_d2
  have hone : ∀ x, 0 < x → J0 x = 0 → 1 ≤ x := fun x h0 h => by
    by_contra hc
    exact (J0_pos h0.le (by linarith)).ne' h
  have hmono : ∀ j k, 1 ≤ j → j < k → z j < z k := by
    intro j k hj hjk
    have h1 := abs_le.1 (hz j hj).2.2.2
    have h2 := abs_le.1 (hz k (by omega)).2.2.2
    have h3 : (j : ℝ) + 1 ≤ k := by exact_mod_cast hjk
    norm_num at *
    nlinarith [h1.2, h2.1]
  intro k hk
  refine ⟨?_, ?_, fun j hj hjk => hmono j k hj hjk⟩
  · induction k, hk using Nat.le_induction with
    | base =>
      ext x
      simp only [Set.mem_ofPred_eq, Finset.coe_image, Finset.coe_Icc, Set.Icc_self, Set.image_singleton, Set.mem_singleton_iff]
      obtain ⟨a1, a2, a3, a4⟩ := hz 1 le_rfl
      refine ⟨fun ⟨h0, h1, h2⟩ => ?_, fun h => by subst h; exact ⟨a2, le_rfl, a1⟩⟩
      by_contra hne
      have := J0_gap (hone x h0 h2) (lt_of_le_of_ne h1 hne) h2 a1 (Or.inr a3)
      have h3 := hone x h0 h2
      have := (abs_le.1 a4).2
      norm_num at *
      linarith
    | succ k hk ih =>
      ext x
      rw [show Finset.Icc 1 (k + 1) = insert (k + 1) (Finset.Icc 1 k) from (Finset.insert_Icc_right_eq_Icc_add_one (by omega)).symm, Finset.image_insert, Finset.coe_insert, ← ih]
      obtain ⟨a1, a2, a3, a4⟩ := hz (k + 1) (by omega)
      obtain ⟨b1, b2, b3, b4⟩ := hz k hk
      have hlt := hmono k (k + 1) hk (by omega)
      simp only [Set.mem_ofPred_eq, Set.mem_insert_iff]
      constructor
      · rintro ⟨h0, h1, h2⟩
        by_contra hne
        push Not at hne
        obtain ⟨hne, h3⟩ := hne
        have hkx : z k < x := by
          by_contra hc
          exact h3 h0 (not_lt.1 hc) h2
        -- `x` lies strictly between `z k` and `z (k + 1)`
        have g1 := J0_gap (hone x h0 h2) (lt_of_le_of_ne h1 hne) h2 a1 (Or.inr a3)
        have g2 := J0_gap (hone _ b2 b1) hkx b1 h2 (Or.inl b3)
        have c1 := (abs_le.1 a4).2
        have c2 := (abs_le.1 b4).1
        push_cast at c1
        norm_num at *
        linarith
      · rintro (h | ⟨h0, h1, h2⟩)
        · subst h; exact ⟨a2, le_rfl, a1⟩
        · exact ⟨h0, h1.trans hlt.le, h2⟩
  · intro i hi j hj hij
    simp only [Finset.coe_Icc, Set.mem_Icc] at hi hj
    rcases Nat.lt_trichotomy i j with h | h | h
    · exact absurd hij (hmono i j hi.1 h).ne
    · exact h
    · exact absurd hij (hmono j i hj.1 h).ne'

end GaussQuad.BesselTrue
