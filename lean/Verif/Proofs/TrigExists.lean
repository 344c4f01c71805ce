import Verif.Proofs.F64Core
import Verif.Spec.Backend

/-!
# The contract on `sin` and `cos` can be met
-/

set_option exponentiation.threshold 3000

namespace GaussQuad.F64
open Spec

theorem exists_rel (s : ℝ) (h0 : 1 / 2 ^ 1000 ≤ |s|) (h1 : |s| ≤ 2 ^ 1022) : ∃ y : F64, y.isFinite = true ∧ |(y.val : ℝ) - s| ≤ 1 / 2 ^ 52 * |s| := by
  have hs : 0 < |s| := lt_of_lt_of_le (by positivity) h0
  obtain ⟨q, hq1, hq2⟩ := exists_rat_btwn (show s - |s| / 2 ^ 60 < s + |s| / 2 ^ 60 by
    have : 0 < |s| / 2 ^ 60 := by positivity
    linarith)
  have hq : |(q : ℝ) - s| ≤ |s| / 2 ^ 60 := by rw [_root_.abs_le]; constructor <;> linarith
  have hqu : |(q : ℝ)| ≤ |s| + |s| / 2 ^ 60 := by
    have := abs_sub_abs_le_abs_sub (q : ℝ) s; linarith
  have hql : |s| - |s| / 2 ^ 60 ≤ |(q : ℝ)| := by
    have := abs_sub_abs_le_abs_sub s (q : ℝ); rw [abs_sub_comm] at this; linarith
  obtain ⟨f1, f2⟩ := round_rel (q := q) (s := false) (hqu.trans (by
    calc |s| + |s| / 2 ^ 60 ≤ 2 ^ 1022 + 2 ^ 1022 / 2 ^ 60 := by gcongr
      _ ≤ 2 ^ 1023 := by norm_num)) (le_trans (by
    calc (1 : ℝ) / 2 ^ 1020 ≤ (1 - 1 / 2 ^ 60) * (1 / 2 ^ 1000) := by norm_num
      _ ≤ (1 - 1 / 2 ^ 60) * |s| := mul_le_mul_of_nonneg_left h0 (by norm_num)
      _ = |s| - |s| / 2 ^ 60 := by ring) hql)
  refine ⟨_, f1, ?_⟩
  have h3 := abs_sub_le (round q false).rv q s
  change |(round q false).rv - s| ≤ _
  have h4 : 1 * U * |(q : ℝ)| ≤ 1 * U * (|s| + |s| / 2 ^ 60) := mul_le_mul_of_nonneg_left hqu (by have := U_pos; linarith)
  have h5 : 1 * U * (|s| + |s| / 2 ^ 60) + |s| / 2 ^ 60 ≤ 1 / 2 ^ 52 * |s| := by
    unfold U
    have : (1 : ℝ) / 2 ^ 53 * (1 + 1 / 2 ^ 60) + 1 / 2 ^ 60 ≤ 1 / 2 ^ 52 := by norm_num
    calc 1 * (1 / 2 ^ 53) * (|s| + |s| / 2 ^ 60) + |s| / 2 ^ 60 = ((1 : ℝ) / 2 ^ 53 * (1 + 1 / 2 ^ 60) + 1 / 2 ^ 60) * |s| := by ring
      _ ≤ _ := by gcongr
  linarith

theorem exists_sin (s : ℝ) (h0 : 1 / 2 ^ 600 ≤ |s|) (h1 : |s| ≤ 1) : ∃ y : F64, y.isFinite = true ∧ |(y.val : ℝ) - s| ≤ 1 / 2 ^ 52 * |s| :=
  exists_rel s (le_trans (by norm_num) h0) (h1.trans (by norm_num))

theorem exists_cos (s : ℝ) (h1 : |s| ≤ 1) : ∃ y : F64, y.isFinite = true ∧ |(y.val : ℝ) - s| ≤ 1 / 2 ^ 52 := by
  obtain ⟨q, hq1, hq2⟩ := exists_rat_btwn (show s - 1 / 2 ^ 60 < s + 1 / 2 ^ 60 by linarith [show (0 : ℝ) < 1 / 2 ^ 60 by positivity])
  have hq : |(q : ℝ) - s| ≤ 1 / 2 ^ 60 := by rw [_root_.abs_le]; constructor <;> linarith
  have hqu : |(q : ℝ)| ≤ 1 + 1 / 2 ^ 60 := by
    have := abs_sub_abs_le_abs_sub (q : ℝ) s; linarith
  obtain ⟨f1, f2⟩ := round_near (q := q) (s := false) (hqu.trans (by norm_num))
  refine ⟨_, f1, ?_⟩
  have h3 := abs_sub_le (round q false).rv q s
  change |(round q false).rv - s| ≤ _
  have h4 : U * |(q : ℝ)| ≤ U * (1 + 1 / 2 ^ 60) := mul_le_mul_of_nonneg_left hqu U_pos.le
  have h5 : U * (1 + 1 / 2 ^ 60) + 1 / 2 ^ 1075 + 1 / 2 ^ 60 ≤ 1 / 2 ^ 52 := by
    unfold U; norm_num
  linarith

theorem sin_ge {t : ℝ} (h0 : 1 / 2 ^ 500 ≤ t) (h2 : t ≤ 2) : 1 / 2 ^ 600 ≤ |Real.sin t| := by
  have ht : 0 < t := lt_of_lt_of_le (by positivity) h0
  have hp := Real.pi_gt_d2
  by_cases h : t ≤ 1
  · have := Real.sin_gt_sub_cube ht
    have h3 : t / 2 ≤ t - t ^ 3 / 6 := by
      have : t ^ 3 ≤ t * 1 := by nlinarith [sq_nonneg t, mul_pos ht ht]
      linarith
    refine le_trans ?_ (le_abs_self _)
    calc (1 : ℝ) / 2 ^ 600 ≤ 1 / 2 ^ 500 / 2 := by norm_num
      _ ≤ t / 2 := by gcongr
      _ ≤ _ := by linarith
  · push Not at h
    have h4 : Real.sin t = Real.sin (Real.pi - t) := by rw [Real.sin_pi_sub]
    have hp2 := Real.pi_lt_d2
    have h5 : 0.5 ≤ |Real.sin t| := by
      refine le_trans ?_ (le_abs_self _)
      by_cases h6 : t ≤ Real.pi / 2
      · have := Real.sin_le_sin_of_le_of_le_pi_div_two (by linarith) h6 h.le
        have h7 := Real.sin_gt_sub_cube (x := 1) (by norm_num)
        linarith
      · rw [h4]
        have := Real.sin_le_sin_of_le_of_le_pi_div_two (x := 1) (y := Real.pi - t) (by linarith) (by linarith) (by linarith)
        have h7 := Real.sin_gt_sub_cube (x := 1) (by norm_num)
        linarith
    exact le_trans (by norm_num) h5

/-- a backend that meets all contracts -/
theorem accurateLibm_exists' : ∃ L : Libm, AccurateSinNeg L ∧ AccurateTrig L ∧ AccurateSin L ∧ AccuratePow L ∧ AccurateSqrt L := by
  classical
  let g : ℝ → F64 := fun s => if h : |s| ≤ 1 then (exists_cos s h).choose else nan
  let f : ℝ → F64 := fun s => if h : 1 / 2 ^ 600 ≤ |s| ∧ |s| ≤ 1 then (exists_sin s h.1 h.2).choose else g s
  have hg : ∀ s, |s| ≤ 1 → (g s).isFinite = true ∧ |((g s).val : ℝ) - s| ≤ 1 / 2 ^ 52 := fun s h => by
    have e : g s = (exists_cos _ h).choose := dif_pos h
    rw [e]
    exact (exists_cos _ h).choose_spec
  have hf : ∀ s, 1 / 2 ^ 600 ≤ |s| → |s| ≤ 1 → (f s).isFinite = true ∧ |((f s).val : ℝ) - s| ≤ 1 / 2 ^ 52 * |s| := fun s h0 h1 => by
    have e : f s = (exists_sin s h0 h1).choose := dif_pos ⟨h0, h1⟩
    rw [e]
    exact (exists_sin s h0 h1).choose_spec
  let ρ : ℝ → F64 := fun s => if h : 1 / 2 ^ 1000 ≤ |s| ∧ |s| ≤ 2 ^ 1022 then (exists_rel s h.1 h.2).choose else nan
  have hr : ∀ s, 1 / 2 ^ 1000 ≤ |s| → |s| ≤ 2 ^ 1022 → (ρ s).isFinite = true ∧ |((ρ s).val : ℝ) - s| ≤ 1 / 2 ^ 52 * |s| := fun s h0 h1 => by
    have e : ρ s = (exists_rel s h0 h1).choose := dif_pos ⟨h0, h1⟩
    rw [e]
    exact (exists_rel s h0 h1).choose_spec
  have hs : ∀ x : F64, (f (Real.sin x.val)).isFinite = true ∧ |((f (Real.sin x.val)).val : ℝ) - Real.sin x.val| ≤ 1 / 2 ^ 52 := fun x => by
    have h1 := Real.abs_sin_le_one (x.val : ℝ)
    by_cases h : 1 / 2 ^ 600 ≤ |Real.sin x.val|
    · obtain ⟨a1, a2⟩ := hf _ h h1
      refine ⟨a1, a2.trans ?_⟩
      calc (1 : ℝ) / 2 ^ 52 * |Real.sin x.val| ≤ 1 / 2 ^ 52 * 1 := by gcongr
        _ = _ := mul_one _
    · have e : f (Real.sin x.val) = g (Real.sin x.val) := dif_neg fun h' => h h'.1
      rw [e]
      exact hg _ h1
  refine ⟨{ sin := fun x => f (Real.sin x.val), cos := fun x => g (Real.cos x.val), sqrt := fun x => ρ (Real.sqrt x.val), pow := fun x y => ρ ((x.val : ℝ) ^ (y.val : ℝ)) }, ?_, ⟨?_, ?_⟩, ?_, ?_, ?_⟩
  · intro x _ _ _
    exact hs x
  · intro x _ h1 h2
    exact hf _ (sin_ge h1 h2) (Real.abs_sin_le_one _)
  · intro x _ _ _
    exact hg _ (Real.abs_cos_le_one _)
  · intro x _ _ _
    exact hs x
  · intro x y _ _ h1 h2 h3 h4 h5
    have hp : (0 : ℝ) < (x.val : ℝ) ^ (y.val : ℝ) := Real.rpow_pos_of_pos (by linarith) _
    have h6 : ((x.val : ℝ) : ℝ) ^ (-2 : ℝ) ≤ (x.val : ℝ) ^ (y.val : ℝ) := Real.rpow_le_rpow_of_exponent_le h1 h3
    have h7 : (1 : ℝ) / 2 ^ 1000 ≤ (x.val : ℝ) ^ (-2 : ℝ) := by
      rw [Real.rpow_neg (by linarith), show (2 : ℝ) = ((2 : ℕ) : ℝ) by norm_num, Real.rpow_natCast, ← one_div]
      refine one_div_le_one_div_of_le (pow_pos (by linarith) 2) ?_
      calc (x.val : ℝ) ^ 2 ≤ 128 ^ 2 := pow_le_pow_left₀ (by linarith) h2 2
        _ ≤ _ := by norm_num
    have h8 := hr _ (by rw [abs_of_pos hp]; exact h7.trans h6) (by rw [abs_of_pos hp]; exact h5)
    rwa [abs_of_pos hp] at h8
  · intro x hx h0
    have hp : (0 : ℝ) < Real.sqrt x.val := Real.sqrt_pos.2 h0
    have b1 : (x.val : ℝ) ≤ 2 ^ 1024 := by
      have h1 := (le_abs_self x.val).trans (val_lt_threshold hx).le
      have h2 : x.val ≤ 2 ^ 1024 := h1.trans (by norm_num [overflowThreshold])
      exact_mod_cast h2
    have b2 : 1 / 2 ^ 1074 ≤ (x.val : ℝ) := by
      have h0' : 0 < x.val := by exact_mod_cast h0
      have h2 : 1 / 2 ^ 1074 ≤ x.val := by
        cases hs : x.sign
        · rw [val_of_pos hs] at h0' ⊢
          have : 0 < magInt x.mag := by
            rcases Nat.eq_zero_or_pos (magInt x.mag) with h | h
            · rw [h] at h0'; norm_num at h0'
            · exact h
          gcongr
          exact_mod_cast this
        · rw [val_of_neg hs] at h0'
          have : (0 : ℚ) ≤ magInt x.mag / 2 ^ 1074 := by positivity
          linarith
      have h3 : ((1 / 2 ^ 1074 : ℚ) : ℝ) ≤ (x.val : ℝ) := by exact_mod_cast h2
      push_cast at h3
      exact h3
    have h8 := hr _ (by
      rw [abs_of_pos hp]
      refine Real.le_sqrt_of_sq_le (le_trans ?_ b2)
      norm_num) (by
      rw [abs_of_pos hp, Real.sqrt_le_left (by positivity)]
      refine b1.trans ?_
      norm_num)
    rwa [abs_of_pos hp] at h8

/-- the same without the contract at negative arguments -/
theorem accurateLibm_exists : ∃ L : Libm, AccurateTrig L ∧ AccurateSin L ∧ AccuratePow L ∧ AccurateSqrt L := accurateLibm_exists'.imp fun _ h => h.2

/-- a backend that meets both contracts on `sin` and `cos` -/
theorem accurateTrigSin_exists : ∃ L : Libm, AccurateTrig L ∧ AccurateSin L := accurateLibm_exists.imp fun _ h => ⟨h.1, h.2.1⟩

/-- a backend that meets the contract -/
theorem accurateTrig_exists : ∃ L : Libm, AccurateTrig L := accurateTrigSin_exists.imp fun _ h => h.1

end GaussQuad.F64
