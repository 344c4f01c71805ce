import Verif.Proofs.F64Core
import Mathlib.Analysis.Real.Pi.Bounds

/-!
# binary64: the Bessel helpers of `compute_pair`
-/

set_option exponentiation.threshold 3000

namespace GaussQuad.F64
open FloatOps Spec Bogaert Asymptotic LegendreData

section
variable {F : Type} [FloatOps F]

theorem j0a_eq (k : ℕ) : (besselJ0ZeroAsymptotic k : F) =
    (let z : F := pi *ᶠ (ofNat k -ᶠ lit 0.25)
     let r := lit 1.0 /ᶠ z
     z +ᶠ r *ᶠ hornerN (5.092254624022268e7) (-8.493535802991488e5) [18690.476528232066, -567.6444121351834, 25.336414797343906, -1.824438767206101,
      0.24602864583333334, -8.072916666666667e-2, 0.125] (r *ᶠ r)) := rfl

theorem j1a_eq (k : ℕ) : (besselJ1SquaredAsymptotic k : F) =
    (let x : F := lit 1.0 /ᶠ (ofNat k -ᶠ lit 0.25)
     let x2 := x *ᶠ x
     x *ᶠ (lit 0.20264236728467555 +ᶠ x2 *ᶠ x2 *ᶠ hornerN 0.18539539820634562 (-2.6683739370232377e-2) [4.9610142326888314e-3, -1.236323497271754e-3,
       4.337107191307463e-4, -2.2896990277211166e-4, 1.989243642459693e-4, -3.0338042971129027e-4] x2)) := rfl

end

variable [L : Libm]

theorem pi_rel : Rel (pi : F64) Real.pi 0.36 := by
  have e : (F64.ofBits 0x400921FB54442D18).val = 884279719003555 / 281474976710656 := by decide +kernel
  change Rel (F64.ofBits 0x400921FB54442D18) _ _
  refine ⟨by decide +kernel, ?_⟩
  have h1 := Real.pi_gt_d20
  have h2 := Real.pi_lt_d20
  rw [rv, e, abs_of_pos Real.pi_pos, abs_le]
  unfold U
  push_cast
  constructor
  · nlinarith
  · nlinarith

theorem lit_quarter_rel : Rel (lit 0.25 : F64) (1 / 4) 0 := by
  have h := lit_exact (q := (0.25 : ℚ)) (x := round (1 / 4) false) (by decide +kernel) (by decide +kernel)
  have e : ((0.25 : ℚ) : ℝ) = 1 / 4 := by norm_num
  rwa [e] at h

theorem kq_rel {k : ℕ} (hk : 21 ≤ k) (hlt : k < 2 ^ 64) : Rel (ofNat k -ᶠ lit 0.25 : F64) (k - 1 / 4) 2.02 := by
  have hU := U_pos
  have hU1 : U ≤ 1 / 10 ^ 15 := U_le_eta
  have h1 : (21 : ℝ) ≤ k := by exact_mod_cast hk
  have h2 : (k : ℝ) ≤ 2 ^ 64 := by exact_mod_cast hlt.le
  have hk := ofNat_rel (n := k) (by omega) hlt
  have hq := lit_quarter_rel
  have hUk : U * k ≤ 1 / 10 ^ 15 * k := by gcongr
  have h := Near.sub (A := (k - 1 / 4 + 1 / 10 ^ 15 * k : ℝ)) hk.near hq.near (by
    rw [abs_of_pos (by linarith : (0 : ℝ) < k - 1 / 4), abs_of_pos (by linarith : (0 : ℝ) < k)]
    linarith) (by
    calc (k - 1 / 4 + 1 / 10 ^ 15 * k : ℝ) ≤ 2 ^ 64 + 1 / 10 ^ 15 * 2 ^ 64 := by
          have : 1 / 10 ^ 15 * (k : ℝ) ≤ 1 / 10 ^ 15 * 2 ^ 64 := by gcongr
          linarith
      _ ≤ 2 ^ 1023 := by norm_num)
  refine h.rel ?_
  rw [abs_of_pos (by linarith : (0 : ℝ) < k - 1 / 4), abs_of_pos (by linarith : (0 : ℝ) < k)]
  have : 0 ≤ U * (k - 21) := mul_nonneg hU.le (by linarith)
  linarith

theorem tableLit_rel {v : ℤ} (h1 : 1 ≤ v) (h2 : v ≤ 10 ^ 30) : Rel (tableLit v : F64) (tableLit v : ℝ) 1 := by
  have e1 : (1 : ℝ) ≤ v := by exact_mod_cast h1
  have e2 : (v : ℝ) ≤ 10 ^ 30 := by exact_mod_cast h2
  have h := round_rel (q := (v : ℚ) / 100000000000000000000) (s := false) (by
    push_cast
    rw [abs_of_nonneg (by positivity), div_le_iff₀ (by norm_num)]
    exact e2.trans (by norm_num)) (by
    push_cast
    rw [abs_of_nonneg (by positivity), le_div_iff₀ (by norm_num)]
    exact le_trans (by norm_num) e1)
  exact h

theorem j0a_rel {k : ℕ} (hk : 21 ≤ k) (hlt : k < 2 ^ 64) : Rel (besselJ0ZeroAsymptotic k : F64) (besselJ0ZeroAsymptotic k) 5 := by
  rw [j0a_eq, j0a_eq]
  have hU := U_pos
  have htiny := tiny_le
  have hU1 : U ≤ 1 / 10 ^ 15 := U_le_eta
  have h1 : (21 : ℝ) ≤ k := by exact_mod_cast hk
  have h2 : (k : ℝ) ≤ 2 ^ 64 := by exact_mod_cast hlt.le
  have hp1 := Real.pi_gt_d6
  have hp2 := Real.pi_lt_d6
  have hz1 : (65 : ℝ) ≤ Real.pi * (k - 1 / 4) := by nlinarith
  have hz2 : Real.pi * (k - 1 / 4) ≤ 2 ^ 66 := by nlinarith
  have hz : Rel (pi *ᶠ (ofNat k -ᶠ lit 0.25) : F64) (Real.pi * (k - 1 / 4)) 3.39 := by
    have m := moderate (a := Real.pi * (k - 1 / 4)) (le_trans (by norm_num) hz1) (hz2.trans (by norm_num))
    exact Rel.mul pi_rel (kq_rel hk hlt) m.1 m.2 (by norm_num) (by norm_num) (by norm_num) (by norm_num) (by norm_num)
  have er : ((0.25 : ℚ) : ℝ) = 1 / 4 := by norm_num
  have er1 : ((1.0 : ℚ) : ℝ) = 1 := by norm_num
  simp only [real_add, real_sub, real_mul, real_div, real_ofNat, real_pi, real_lit, er, er1]
  generalize (pi *ᶠ (ofNat k -ᶠ lit 0.25) : F64) = z' at *
  generalize Real.pi * ((k : ℝ) - 1 / 4) = z at *
  have hz0 : 0 < z := by linarith
  have r0 : 1 / 2 ^ 66 ≤ 1 / z := one_div_le_one_div_of_le hz0 hz2
  have r1 : 1 / z ≤ 0.0154 := by rw [div_le_iff₀ hz0]; linarith
  have hr : Rel (lit 1.0 /ᶠ z') (1 / z) 4.4 := by
    have m := moderate (a := 1 / z) (le_trans (by norm_num) r0) (r1.trans (by norm_num))
    exact Rel.div lit_one_rel hz hz0.ne' m.1 m.2 (by norm_num) (by norm_num) (by norm_num) (by norm_num) (by norm_num)
  generalize lit 1.0 /ᶠ z' = r' at *
  generalize 1 / z = r at *
  have hr0 : 0 < r := lt_of_lt_of_le (by positivity) r0
  have q0 : 1 / 2 ^ 132 ≤ r * r := by
    calc (1 : ℝ) / 2 ^ 132 = 1 / 2 ^ 66 * (1 / 2 ^ 66) := by norm_num
      _ ≤ r * r := by gcongr
  have q1 : r * r ≤ 0.00024 := by
    calc r * r ≤ 0.0154 * 0.0154 := by gcongr
      _ ≤ _ := by norm_num
  have hrr : Rel (r' *ᶠ r') (r * r) 9.81 := by
    have m := moderate (a := r * r) (le_trans (by norm_num) q0) (q1.trans (by norm_num))
    exact Rel.mul hr hr m.1 m.2 (by norm_num) (by norm_num) (by norm_num) (by norm_num) (by norm_num)
  have hrrN : Near (r' *ᶠ r') (r * r) (((0.01 : ℚ) : ℝ) * U) := by
    refine hrr.near.mono ?_
    rw [abs_of_pos (by positivity)]
    calc 9.81 * U * (r * r) ≤ 9.81 * U * 0.00024 := by gcongr
      _ ≤ _ := by push_cast; linarith
  obtain ⟨g1, g2⟩ := hornerN_near hrrN (X := 0.00024) (by rw [abs_of_pos (by positivity)]; push_cast; exact q1) (by norm_num) (by norm_num) (by norm_num)
    (c0 := 5.092254624022268e7) (c1 := -8.493535802991488e5) (l := [18690.476528232066, -567.6444121351834, 25.336414797343906, -1.824438767206101,
      0.24602864583333334, -8.072916666666667e-2, 0.125]) (A := 0.126) (E := 1) (by norm_num) (by decide +kernel)
  generalize (hornerN _ _ _ (r' *ᶠ r')) = H' at *
  generalize (hornerN _ _ _ (r * r)) = H at *
  push_cast at g1 g2
  have hrN : Near r' r (0.07 * U) := by
    refine hr.near.mono ?_
    rw [abs_of_pos hr0]
    calc 4.4 * U * r ≤ 4.4 * U * 0.0154 := by gcongr
      _ ≤ _ := by linarith
  have hc : Near (r' *ᶠ H') (r * H) (0.1 * U) := by
    refine (hrN.mul g1 (A := 0.016) (B := 0.13) (by rw [abs_of_pos hr0]; linarith) (by linarith) (by norm_num)).mono ?_
    linarith
  have hcA : |r * H| ≤ 0.0001 * z := by
    rw [abs_mul, abs_of_pos hr0]
    calc r * |H| ≤ 0.0154 * 0.126 := mul_le_mul r1 g2 (abs_nonneg _) (by norm_num)
      _ ≤ 0.0001 * z := by linarith
  refine Rel.add_small hz (e := 0.01) (d := 0.0001) (hc.mono ?_) hz0 hcA (by norm_num) (by norm_num) (hz2.trans (by norm_num)) (by norm_num) (by norm_num)
    (by norm_num) (by norm_num)
  have : 0 ≤ U * (z - 65) := mul_nonneg hU.le (by linarith)
  linarith

theorem j1a_rel {k : ℕ} (hk : 22 ≤ k) (hlt : k < 2 ^ 64) : Rel (besselJ1SquaredAsymptotic k : F64) (besselJ1SquaredAsymptotic k) 7 ∧
    1 / 2 ^ 70 ≤ (besselJ1SquaredAsymptotic k : ℝ) ∧ (besselJ1SquaredAsymptotic k : ℝ) ≤ 1 := by
  rw [j1a_eq, j1a_eq]
  have hU := U_pos
  have htiny := tiny_le
  have hU1 : U ≤ 1 / 10 ^ 15 := U_le_eta
  have h1 : (22 : ℝ) ≤ k := by exact_mod_cast hk
  have h2 : (k : ℝ) ≤ 2 ^ 64 := by exact_mod_cast hlt.le
  have hz := kq_rel (by omega : 21 ≤ k) hlt
  have hz1 : (21.75 : ℝ) ≤ k - 1 / 4 := by linarith
  have hz2 : (k - 1 / 4 : ℝ) ≤ 2 ^ 64 := by linarith
  have er : ((0.25 : ℚ) : ℝ) = 1 / 4 := by norm_num
  have er1 : ((1.0 : ℚ) : ℝ) = 1 := by norm_num
  simp only [real_add, real_sub, real_mul, real_div, real_ofNat, real_lit, er, er1]
  generalize (ofNat k -ᶠ lit 0.25 : F64) = z' at *
  generalize ((k : ℝ) - 1 / 4) = z at *
  have hz0 : 0 < z := by linarith
  have r0 : 1 / 2 ^ 64 ≤ 1 / z := one_div_le_one_div_of_le hz0 hz2
  have r1 : 1 / z ≤ 0.046 := by rw [div_le_iff₀ hz0]; linarith
  have hr : Rel (lit 1.0 /ᶠ z') (1 / z) 3.03 := by
    have m := moderate (a := 1 / z) (le_trans (by norm_num) r0) (r1.trans (by norm_num))
    exact Rel.div lit_one_rel hz hz0.ne' m.1 m.2 (by norm_num) (by norm_num) (by norm_num) (by norm_num) (by norm_num)
  generalize lit 1.0 /ᶠ z' = r' at *
  generalize 1 / z = r at *
  have hr0 : 0 < r := lt_of_lt_of_le (by positivity) r0
  have q0 : 1 / 2 ^ 128 ≤ r * r := by
    calc (1 : ℝ) / 2 ^ 128 = 1 / 2 ^ 64 * (1 / 2 ^ 64) := by norm_num
      _ ≤ r * r := by gcongr
  have q1 : r * r ≤ 0.00212 := by
    calc r * r ≤ 0.046 * 0.046 := by gcongr
      _ ≤ _ := by norm_num
  have hrr : Rel (r' *ᶠ r') (r * r) 7.07 := by
    have m := moderate (a := r * r) (le_trans (by norm_num) q0) (q1.trans (by norm_num))
    exact Rel.mul hr hr m.1 m.2 (by norm_num) (by norm_num) (by norm_num) (by norm_num) (by norm_num)
  have hrrN : Near (r' *ᶠ r') (r * r) (((0.02 : ℚ) : ℝ) * U) := by
    refine hrr.near.mono ?_
    rw [abs_of_pos (by positivity)]
    calc 7.07 * U * (r * r) ≤ 7.07 * U * 0.00212 := by gcongr
      _ ≤ _ := by push_cast; linarith
  obtain ⟨g1, g2⟩ := hornerN_near hrrN (X := 0.00212) (by rw [abs_of_pos (by positivity)]; push_cast; exact q1) (by norm_num) (by norm_num) (by norm_num)
    (c0 := 0.18539539820634562) (c1 := -2.6683739370232377e-2) (l := [4.9610142326888314e-3, -1.236323497271754e-3,
       4.337107191307463e-4, -2.2896990277211166e-4, 1.989243642459693e-4, -3.0338042971129027e-4]) (A := 0.001) (E := 0.01) (by norm_num) (by decide +kernel)
  generalize (hornerN _ _ _ (r' *ᶠ r')) = H' at *
  generalize (hornerN _ _ _ (r * r)) = H at *
  push_cast at g1 g2 hrrN
  generalize r' *ᶠ r' = y' at *
  have hy0 : 0 ≤ r * r := by positivity
  have hyy : Near (y' *ᶠ y') (r * r * (r * r)) (0.001 * U) := by
    refine (hrrN.mul hrrN (A := 0.00213) (B := 0.00213) (by rw [abs_of_nonneg hy0]; linarith) (by rw [abs_of_nonneg hy0]; linarith) (by norm_num)).mono ?_
    linarith
  have hyyA : r * r * (r * r) ≤ 0.00001 := by
    calc r * r * (r * r) ≤ 0.00212 * 0.00212 := by gcongr
      _ ≤ _ := by norm_num
  have hyy0 : 0 ≤ r * r * (r * r) := by positivity
  have hc : Near (y' *ᶠ y' *ᶠ H') (r * r * (r * r) * H) (0.0001 * U) := by
    refine (hyy.mul g1 (A := 0.0001) (B := 0.002) (by rw [abs_of_nonneg hyy0]; linarith) (by linarith) (by norm_num)).mono ?_
    linarith
  have hcA : |r * r * (r * r) * H| ≤ 0.00000001 := by
    rw [abs_mul, abs_of_nonneg hyy0]
    calc r * r * (r * r) * |H| ≤ 0.00001 * 0.001 := mul_le_mul hyyA g2 (abs_nonneg _) (by norm_num)
      _ ≤ _ := by norm_num
  have hlit : Rel (lit 0.20264236728467555 : F64) (((0.20264236728467555 : ℚ) : ℝ)) 1 := by
    refine Rel.ofRat ?_ ?_
    · rw [abs_of_nonneg (by norm_num)]; norm_num
    · rw [abs_of_nonneg (by norm_num)]; norm_num
  have hc0 : (((0.20264236728467555 : ℚ) : ℝ)) = 0.20264236728467555 := by norm_num
  have hin : Rel (lit 0.20264236728467555 +ᶠ y' *ᶠ y' *ᶠ H') (((0.20264236728467555 : ℚ) : ℝ) + r * r * (r * r) * H) 2.01 := by
    refine Rel.add_small hlit (e := 0.001) (d := 0.0001) (hc.mono ?_) (by norm_num) (hcA.trans (by norm_num)) (by norm_num) (by norm_num) (by norm_num)
      (by norm_num) (by norm_num) (by norm_num) (by norm_num)
    rw [hc0]; linarith
  have hcl := _root_.abs_le.1 hcA
  rw [hc0] at hin ⊢
  have b0 : 1 / 2 ^ 70 ≤ r * (0.20264236728467555 + r * r * (r * r) * H) := by
    calc (1 : ℝ) / 2 ^ 70 ≤ 1 / 2 ^ 64 * 0.2 := by norm_num
      _ ≤ _ := mul_le_mul r0 (by linarith) (by norm_num) hr0.le
  have b1 : r * (0.20264236728467555 + r * r * (r * r) * H) ≤ 1 := by
    calc r * (0.20264236728467555 + r * r * (r * r) * H) ≤ 0.046 * 0.3 := mul_le_mul r1 (by linarith) (by linarith) (by norm_num)
      _ ≤ 1 := by norm_num
  refine ⟨?_, b0, b1⟩
  have m := moderate (le_trans (by norm_num) b0) (b1.trans (by norm_num))
  exact Rel.mul hr hin m.1 m.2 (by norm_num) (by norm_num) (by norm_num) (by norm_num) (by norm_num)

theorem jz_range : ∀ v ∈ JZ, 1 ≤ v ∧ v ≤ 10 ^ 30 := by decide +kernel
theorem j1_range : ∀ v ∈ J1, 100000000000 ≤ v ∧ v ≤ 100000000000000000000 := by decide +kernel

theorem j0_rel {k : ℕ} (hlt : k < 2 ^ 64) {ν : ℝ} (h : besselJ0Zero k = some ν) : ∃ nu : F64, besselJ0Zero k = some nu ∧ Rel nu ν 5 := by
  unfold besselJ0Zero at h ⊢
  split at h
  · rename_i hk
    rw [if_pos hk]
    cases h
    exact ⟨_, rfl, j0a_rel hk hlt⟩
  · rename_i hk
    rw [if_neg hk]
    simp only [Option.bind_eq_bind, Option.bind_eq_some_iff, Option.pure_def, Option.some.injEq] at h ⊢
    obtain ⟨i, hi, v, hv, rfl⟩ := h
    obtain ⟨v1, v2⟩ := jz_range v (List.mem_of_getElem? hv)
    exact ⟨_, ⟨i, hi, v, hv, rfl⟩, (tableLit_rel v1 v2).mono (by norm_num)⟩

theorem j1_rel {k : ℕ} (hlt : k < 2 ^ 64) {β : ℝ} (h : besselJ1Squared k = some β) : ∃ b : F64, besselJ1Squared k = some b ∧ Rel b β 7 ∧ 1 / 2 ^ 70 ≤ β ∧ β ≤ 1 := by
  unfold besselJ1Squared at h ⊢
  split at h
  · rename_i hk
    rw [if_pos hk]
    cases h
    exact ⟨_, rfl, j1a_rel hk hlt⟩
  · rename_i hk
    rw [if_neg hk]
    simp only [Option.bind_eq_bind, Option.bind_eq_some_iff, Option.pure_def, Option.some.injEq] at h ⊢
    obtain ⟨i, hi, v, hv, rfl⟩ := h
    obtain ⟨v1, v2⟩ := j1_range v (List.mem_of_getElem? hv)
    have e1 : (100000000000 : ℝ) ≤ v := by exact_mod_cast v1
    have e2 : (v : ℝ) ≤ 100000000000000000000 := by exact_mod_cast v2
    refine ⟨_, ⟨i, hi, v, hv, rfl⟩, (tableLit_rel (by omega) (by omega)).mono (by norm_num), ?_, ?_⟩
    · rw [tableLit, real_lit]; push_cast
      rw [le_div_iff₀ (by norm_num)]
      exact le_trans (by norm_num) e1
    · rw [tableLit, real_lit]; push_cast
      rw [div_le_iff₀ (by norm_num)]
      linarith

end GaussQuad.F64
