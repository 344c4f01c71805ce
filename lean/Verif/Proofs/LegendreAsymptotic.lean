import Verif.Model.Legendre
import Verif.Proofs.Structure
import Verif.Proofs.RealRule
import Mathlib.Analysis.Real.Pi.Bounds
import Mathlib.Tactic.NormNum.Abs
import Mathlib.Analysis.SpecialFunctions.Trigonometric.Bounds

/-!
# Crude bounds on the asymptotic branch of the Gauss-Legendre rule (degree above 100)
-/

namespace GaussQuad.Asymptotic
open Bogaert LegendreData FloatOps

theorem hb_add {a x c A X C : ℝ} (ha : |a| ≤ A) (hx : |x| ≤ X) (hc : |c| ≤ C) : |a * x + c| ≤ A * X + C := by
  refine (abs_add_le _ _).trans (add_le_add ?_ hc)
  rw [abs_mul]
  exact mul_le_mul ha hx (abs_nonneg _) ((abs_nonneg _).trans ha)

theorem hb_sub {a x c A X C : ℝ} (ha : |a| ≤ A) (hx : |x| ≤ X) (hc : |c| ≤ C) : |a * x - c| ≤ A * X + C := by
  rw [sub_eq_add_neg]
  exact hb_add ha hx (by rwa [abs_neg])

theorem hb_add' {a x c A X C : ℝ} (ha : |a| ≤ A) (hx : |x| ≤ X) (hc : |c| ≤ C) : |c + x * a| ≤ C + X * A := by
  rw [add_comm, mul_comm, add_comm C, mul_comm X]; exact hb_add ha hx hc

theorem sf1t_bound {x : ℝ} (hx : |x| ≤ 2.56) : |sf1t x| ≤ 0.054 := by
  simp only [sf1t, real_add, real_sub, real_mul, real_lit]
  refine (hb_sub (hb_add (hb_sub (hb_add (hb_sub (hb_add le_rfl hx le_rfl) hx le_rfl) hx le_rfl) hx le_rfl) hx le_rfl) hx le_rfl).trans ?_
  norm_num

theorem sf2t_bound {x : ℝ} (hx : |x| ≤ 2.56) : |sf2t x| ≤ 0.02 := by
  simp only [sf2t, real_add, real_sub, real_mul, real_lit]
  refine (hb_add (hb_sub (hb_add (hb_sub (hb_add (hb_sub le_rfl hx le_rfl) hx le_rfl) hx le_rfl) hx le_rfl) hx le_rfl) hx le_rfl).trans ?_
  norm_num

theorem sf3t_bound {x : ℝ} (hx : |x| ≤ 2.56) : |sf3t x| ≤ 0.02 := by
  simp only [sf3t, real_add, real_sub, real_mul, real_lit]
  refine (hb_sub (hb_add (hb_sub (hb_add (hb_sub (hb_add le_rfl hx le_rfl) hx le_rfl) hx le_rfl) hx le_rfl) hx le_rfl) hx le_rfl).trans ?_
  norm_num

theorem wsf1t_bound {x : ℝ} (hx : |x| ≤ 2.56) : |wsf1t x| ≤ 0.2 := by
  simp only [wsf1t, real_add, real_sub, real_mul, real_lit]
  refine (hb_add (hb_sub (hb_add (hb_sub (hb_add (hb_sub (hb_add (hb_sub (hb_add le_rfl hx le_rfl) hx le_rfl) hx le_rfl) hx le_rfl)
    hx le_rfl) hx le_rfl) hx le_rfl) hx le_rfl) hx le_rfl).trans ?_
  norm_num

theorem wsf2t_bound {x : ℝ} (hx : |x| ≤ 2.56) : |wsf2t x| ≤ 0.1 := by
  simp only [wsf2t, real_add, real_sub, real_mul, real_lit]
  refine (hb_sub (hb_add (hb_sub (hb_add (hb_sub (hb_add (hb_sub (hb_add le_rfl hx le_rfl) hx le_rfl) hx le_rfl)
    hx le_rfl) hx le_rfl) hx le_rfl) hx le_rfl) hx le_rfl).trans ?_
  norm_num

theorem wsf3t_bound {x : ℝ} (hx : |x| ≤ 2.56) : |wsf3t x| ≤ 0.1 := by
  simp only [wsf3t, real_add, real_sub, real_mul, real_lit]
  refine (hb_add (hb_sub (hb_sub (hb_sub (hb_add (hb_sub (hb_add (hb_sub le_rfl hx le_rfl) hx le_rfl) hx le_rfl)
    hx le_rfl) hx le_rfl) hx le_rfl) hx le_rfl) hx le_rfl).trans ?_
  norm_num

theorem sin_lower {t : ℝ} (h0 : 0 < t) (h1 : t ≤ 1.6) : 0 < Real.sin t ∧ t / Real.sin t ≤ 1.7 := by
  have hp1 := Real.pi_gt_d6
  have hp2 := Real.pi_lt_d6
  have key : t / 1.7 ≤ Real.sin t := by
    rcases le_or_gt t (Real.pi / 2) with h | h
    · refine le_trans ?_ (Real.mul_le_sin h0.le h)
      rw [div_eq_inv_mul]
      apply mul_le_mul_of_nonneg_right _ h0.le
      rw [le_div_iff₀ Real.pi_pos]; norm_num; linarith
    · rw [← Real.sin_pi_sub]
      refine le_trans ?_ (Real.mul_le_sin (by linarith) (by linarith))
      have e1 : 0.95 ≤ 2 / Real.pi * (Real.pi - t) := by
        rw [div_mul_eq_mul_div, le_div_iff₀ Real.pi_pos]; linarith
      have e2 : t / 1.7 ≤ 0.95 := by rw [div_le_iff₀ (by norm_num)]; linarith
      linarith
  have hpos : 0 < Real.sin t := lt_of_lt_of_le (by positivity) key
  refine ⟨hpos, ?_⟩
  rw [div_le_iff₀ hpos]
  rw [div_le_iff₀ (by norm_num)] at key
  linarith

/-- The asymptotic angle differs from its leading term `ν/(n+1/2)` by at most `0.002/(n+1/2)`, and the weight is positive. -/
theorem core_bounds {n : ℕ} (hn : 100 < n) {nu b : ℝ} (hnu : 0 < nu) (hb : 0 < b) (ht : nu / (n + 1 / 2) ≤ 1.6) :
    |(computePairCore n nu b).theta - nu / (n + 1 / 2)| ≤ 0.002 / (n + 1 / 2) ∧ 0 < (computePairCore n nu b).weight ∧
    (computePairCore n nu b).weight * (b * (nu / Real.sin (nu / (n + 1 / 2)))) * (n + 1 / 2) ∈ Set.Icc (1.9998 : ℝ) 2.0002 := by
  have hn' : (101 : ℝ) ≤ n := by exact_mod_cast hn
  have hw0 : (0 : ℝ) < 1 / (n + 1 / 2) := by positivity
  have hw1 : (1 : ℝ) / (n + 1 / 2) ≤ 0.01 := by
    rw [div_le_iff₀ (by positivity)]; norm_num; linarith
  set w : ℝ := 1 / (n + 1 / 2) with hw
  have et : nu / ((n : ℝ) + 1 / 2) = w * nu := by rw [hw]; ring
  rw [et] at ht ⊢
  set t : ℝ := w * nu with ht_def
  have ht0 : 0 < t := mul_pos hw0 hnu
  obtain ⟨hs, hts⟩ := sin_lower ht0 ht
  have hx : |t * t| ≤ 2.56 := by
    rw [abs_of_nonneg (mul_self_nonneg t)]; nlinarith
  set s := Real.sin t with hs_def
  have hi0 : 0 < t / s := div_pos ht0 hs
  have ewi : w * w * (nu / s) = w * (t / s) := by rw [ht_def]; ring
  have hwi0 : 0 < w * (t / s) := mul_pos hw0 hi0
  have hwi1 : w * (t / s) ≤ 0.017 := by
    calc w * (t / s) ≤ 0.01 * 1.7 := mul_le_mul hw1 hts hi0.le (by norm_num)
      _ = 0.017 := by norm_num
  have hwis : |w * (t / s) * (w * (t / s))| ≤ 0.0003 := by
    rw [abs_of_nonneg (mul_self_nonneg _)]; nlinarith
  refine ⟨?_, ?_⟩
  · have e : (computePairCore n nu b).theta = w * (nu + t * (w * (t / s)) * (sf1t (t * t) +
        w * (t / s) * (w * (t / s)) * (sf2t (t * t) + w * (t / s) * (w * (t / s)) * sf3t (t * t)))) := by
      simp only [computePairCore, real_add, real_mul, real_div, real_ofNat, real_lit_one, real_lit_half, real_sin]
      rw [← hw, ← ht_def, ← hs_def, ewi]
    rw [e]
    have hS := hb_add' (hb_add' (sf3t_bound hx) hwis (sf2t_bound hx)) hwis (sf1t_bound hx)
    set S := sf1t (t * t) + w * (t / s) * (w * (t / s)) * (sf2t (t * t) + w * (t / s) * (w * (t / s)) * sf3t (t * t))
    have h1 : w * (nu + t * (w * (t / s)) * S) - t = w * (t * (w * (t / s)) * S) := by rw [ht_def]; ring
    rw [h1, abs_mul, abs_of_pos hw0, abs_mul, abs_of_pos (mul_pos ht0 hwi0)]
    have h2 : t * (w * (t / s)) * |S| ≤ 0.002 := by
      calc t * (w * (t / s)) * |S| ≤ (1.6 * 0.017) * (0.054 + 0.0003 * (0.02 + 0.0003 * 0.02)) :=
            mul_le_mul (mul_le_mul ht hwi1 hwi0.le (by norm_num)) hS (abs_nonneg _) (by norm_num)
        _ ≤ 0.002 := by norm_num
    calc w * (t * (w * (t / s)) * |S|) ≤ w * 0.002 := mul_le_mul_of_nonneg_left h2 hw0.le
      _ = 0.002 / (n + 1 / 2) := by rw [hw]; ring
  · have e : (computePairCore n nu b).weight = 2 * w / (b * (nu / s) + b * (nu / s) * (w * (t / s) * (w * (t / s))) * (wsf1t (t * t) +
        w * (t / s) * (w * (t / s)) * (wsf2t (t * t) + w * (t / s) * (w * (t / s)) * wsf3t (t * t)))) := by
      simp only [computePairCore, real_add, real_mul, real_div, real_ofNat, real_lit_one, real_lit_two, real_lit_half, real_sin]
      rw [← hw, ← ht_def, ← hs_def, ewi]
    have hS := hb_add' (hb_add' (wsf3t_bound hx) hwis (wsf2t_bound hx)) hwis (wsf1t_bound hx)
    set S := wsf1t (t * t) + w * (t / s) * (w * (t / s)) * (wsf2t (t * t) + w * (t / s) * (w * (t / s)) * wsf3t (t * t))
    set q := w * (t / s) * (w * (t / s)) with hq
    have hB : 0 < b * (nu / s) := mul_pos hb (div_pos hnu hs)
    set B := b * (nu / s) with hBdef
    have hqS : |q * S| ≤ 0.00007 := by
      rw [abs_mul]
      calc |q| * |S| ≤ 0.0003 * (0.2 + 0.0003 * (0.1 + 0.0003 * 0.1)) :=
            mul_le_mul hwis hS (abs_nonneg _) (by norm_num)
        _ ≤ _ := by norm_num
    have hden : B + B * q * S = B * (1 + q * S) := by ring
    have h1 := (abs_le.1 hqS).1
    have h2 := (abs_le.1 hqS).2
    have hone : 0 < 1 + q * S := by linarith
    rw [e, hden]
    refine ⟨div_pos (by linarith) (mul_pos hB hone), ?_⟩
    have : 2 * w / (B * (1 + q * S)) * B * (n + 1 / 2) = 2 / (1 + q * S) := by
      have hn0 : (n : ℝ) + 1 / 2 ≠ 0 := by positivity
      rw [hw]; field_simp
    rw [this]
    constructor
    · rw [le_div_iff₀ hone]; linarith
    · rw [div_le_iff₀ hone]; linarith

/-! ## the Bessel data -/

theorem jz_close : ∀ i : ℕ, i < 20 → ∀ v : ℤ, JZ[i]? = some v →
    ((v : ℚ) / 100000000000000000000 - 0.05 ≤ 3.141592 * (i + 3 / 4) ∧ 3.141593 * (i + 3 / 4) ≤ (v : ℚ) / 100000000000000000000 + 0.05) := by
  have h : ∀ i : ℕ, i < 20 → (JZ[i]?.all fun v => decide
      ((v : ℚ) / 100000000000000000000 - 0.05 ≤ 3.141592 * (i + 3 / 4) ∧ 3.141593 * (i + 3 / 4) ≤ (v : ℚ) / 100000000000000000000 + 0.05)) = true := by
    decide +kernel
  intro i hi v hv
  have := h i hi
  rw [hv] at this
  simpa using this

theorem j1_pos : ∀ i : ℕ, i < 21 → ∀ v : ℤ, J1[i]? = some v → 0 < v := by
  have h : ∀ i : ℕ, i < 21 → (J1[i]?.all fun v => decide (0 < v)) = true := by decide +kernel
  intro i hi v hv
  have := h i hi
  rw [hv] at this
  simpa using this

theorem coef0 : |((0.125 : ℚ) : ℝ)| ≤ 0.125 := by rw [abs_le]; constructor <;> norm_num
theorem coef1 : |((-8.072916666666667e-2 : ℚ) : ℝ)| ≤ 0.081 := by rw [abs_le]; constructor <;> norm_num
theorem coef2 : |((0.24602864583333334 : ℚ) : ℝ)| ≤ 0.25 := by rw [abs_le]; constructor <;> norm_num
theorem coef3 : |((-1.824438767206101 : ℚ) : ℝ)| ≤ 1.83 := by rw [abs_le]; constructor <;> norm_num
theorem coef4 : |((25.336414797343906 : ℚ) : ℝ)| ≤ 26 := by rw [abs_le]; constructor <;> norm_num
theorem coef5 : |((-567.6444121351834 : ℚ) : ℝ)| ≤ 568 := by rw [abs_le]; constructor <;> norm_num
theorem coef6 : |((18690.476528232066 : ℚ) : ℝ)| ≤ 18691 := by rw [abs_le]; constructor <;> norm_num
theorem coef7 : |((-8.493535802991488e5 : ℚ) : ℝ)| ≤ 850000 := by rw [abs_le]; constructor <;> norm_num
theorem coef8 : |((5.092254624022268e7 : ℚ) : ℝ)| ≤ 51000000 := by rw [abs_le]; constructor <;> norm_num
theorem coef9 : |((-3.0338042971129027e-4 : ℚ) : ℝ)| ≤ 0.01 := by rw [abs_le]; constructor <;> norm_num
theorem coef10 : |((1.989243642459693e-4 : ℚ) : ℝ)| ≤ 0.01 := by rw [abs_le]; constructor <;> norm_num
theorem coef11 : |((-2.2896990277211166e-4 : ℚ) : ℝ)| ≤ 0.01 := by rw [abs_le]; constructor <;> norm_num
theorem coef12 : |((4.337107191307463e-4 : ℚ) : ℝ)| ≤ 0.01 := by rw [abs_le]; constructor <;> norm_num
theorem coef13 : |((-1.236323497271754e-3 : ℚ) : ℝ)| ≤ 0.01 := by rw [abs_le]; constructor <;> norm_num
theorem coef14 : |((4.9610142326888314e-3 : ℚ) : ℝ)| ≤ 0.01 := by rw [abs_le]; constructor <;> norm_num
theorem coef15 : |((-2.6683739370232377e-2 : ℚ) : ℝ)| ≤ 0.1 := by rw [abs_le]; constructor <;> norm_num
theorem coef16 : |((0.18539539820634562 : ℚ) : ℝ)| ≤ 0.2 := by rw [abs_le]; constructor <;> norm_num

/-- the Bessel zero used by the code is within 0.05 of `π(k - 1/4)` -/
theorem nu_close {k : ℕ} (hk : 1 ≤ k) {nu : ℝ} (h : besselJ0Zero k = some nu) : |nu - Real.pi * (k - 1 / 4)| ≤ 0.05 := by
  unfold besselJ0Zero at h
  have hp1 := Real.pi_gt_d6
  have hp2 := Real.pi_lt_d6
  split at h
  · rename_i hk20
    have hk' : (21 : ℝ) ≤ k := by exact_mod_cast hk20
    simp only [besselJ0ZeroAsymptotic, real_add, real_sub, real_mul, real_div, real_lit, real_ofNat, real_pi, Option.some.injEq] at h
    rw [← h]
    have hz : (65 : ℝ) ≤ Real.pi * (k - ((0.25 : ℚ) : ℝ)) := by push_cast; nlinarith
    have hz' : Real.pi * ((k : ℝ) - ((0.25 : ℚ) : ℝ)) = Real.pi * (k - 1 / 4) := by norm_num
    rw [hz'] at hz ⊢
    set z := Real.pi * ((k : ℝ) - 1 / 4)
    rw [add_sub_cancel_left]
    have hr0 : 0 < ((1.0 : ℚ) : ℝ) / z := by norm_num; linarith
    have hr1 : ((1.0 : ℚ) : ℝ) / z ≤ 1 / 65 := by
      have : ((1.0 : ℚ) : ℝ) = 1 := by norm_num
      rw [this]
      exact one_div_le_one_div_of_le (by norm_num) hz
    generalize ((1.0 : ℚ) : ℝ) / z = r at hr0 hr1 ⊢
    have hr2 : |r * r| ≤ 1 / 4225 := by
      rw [abs_of_nonneg (mul_self_nonneg _)]; nlinarith
    rw [abs_mul, abs_of_pos hr0]
    have key := hb_add' (hb_add' (hb_add' (hb_add' (hb_add' (hb_add' (hb_add' (hb_add' coef8 hr2 coef7) hr2 coef6) hr2 coef5) hr2 coef4) hr2 coef3) hr2 coef2) hr2 coef1) hr2 coef0
    rw [mul_comm (r * r) ((5.092254624022268e7 : ℚ) : ℝ)] at key
    refine (mul_le_mul hr1 key (abs_nonneg _) (by norm_num)).trans ?_
    norm_num
  · rename_i hk20
    have e1 : csub k 1 = some (k - 1) := by simp [csub]; omega
    rw [e1] at h
    rcases hv : JZ[k - 1]? with _ | v
    · rw [Option.bind_eq_bind, Option.bind_some, hv] at h; simp at h
    · rw [Option.bind_eq_bind, Option.bind_some, hv] at h
      simp only [Option.bind_eq_bind, Option.bind_some, Option.pure_def, Option.some.injEq] at h
      obtain ⟨h1, h2⟩ := jz_close (k - 1) (by omega) v hv
      have h1' : ((((v : ℚ) / 100000000000000000000 - 0.05 : ℚ)) : ℝ) ≤ ((3.141592 * (((k - 1 : ℕ) : ℚ) + 3 / 4) : ℚ) : ℝ) := by exact_mod_cast h1
      have h2' : ((3.141593 * (((k - 1 : ℕ) : ℚ) + 3 / 4) : ℚ) : ℝ) ≤ ((((v : ℚ) / 100000000000000000000 + 0.05 : ℚ)) : ℝ) := by exact_mod_cast h2
      rw [← h, tableLit, real_lit]
      rw [Nat.cast_sub hk] at h1' h2'
      push_cast at h1' h2' ⊢
      have hk' : (1 : ℝ) ≤ k := by exact_mod_cast hk
      rw [abs_le]
      constructor <;> nlinarith

theorem b_pos {k : ℕ} (hk : 1 ≤ k) {b : ℝ} (h : besselJ1Squared k = some b) : 0 < b := by
  unfold besselJ1Squared at h
  split at h
  · rename_i hk20
    have hk' : (22 : ℝ) ≤ k := by exact_mod_cast hk20
    simp only [besselJ1SquaredAsymptotic, real_add, real_sub, real_mul, real_div, real_lit, real_ofNat, Option.some.injEq] at h
    rw [← h]
    have hz : (21 : ℝ) ≤ (k - ((0.25 : ℚ) : ℝ)) := by push_cast; linarith
    set z := ((k : ℝ) - ((0.25 : ℚ) : ℝ))
    have hr0 : 0 < ((1.0 : ℚ) : ℝ) / z := by norm_num; linarith
    have hr1 : ((1.0 : ℚ) : ℝ) / z ≤ 1 / 21 := by
      have : ((1.0 : ℚ) : ℝ) = 1 := by norm_num
      rw [this]
      exact one_div_le_one_div_of_le (by norm_num) hz
    generalize ((1.0 : ℚ) : ℝ) / z = r at hr0 hr1 ⊢
    have hr2 : |r * r| ≤ 1 / 441 := by
      rw [abs_of_nonneg (mul_self_nonneg _)]; nlinarith
    apply mul_pos hr0
    have key := (hb_add' (hb_add' (hb_add' (hb_add' (hb_add' (hb_add' (hb_add' coef16 hr2 coef15) hr2 coef14) hr2 coef13) hr2 coef12) hr2 coef11) hr2 coef10) hr2 coef9)
    rw [mul_comm (r * r) ((0.18539539820634562 : ℚ) : ℝ)] at key
    have hr4 : |r * r * (r * r)| ≤ 1 / 441 * (1 / 441) := by
      rw [abs_mul]; exact mul_le_mul hr2 hr2 (abs_nonneg _) (by norm_num)
    have k2 := mul_le_mul hr4 key (abs_nonneg _) (by norm_num)
    rw [← abs_mul] at k2
    have k3 := (abs_le.1 k2).1
    refine lt_of_lt_of_le ?_ (add_le_add_right k3 _)
    norm_num
  · rename_i hk20
    have e1 : csub k 1 = some (k - 1) := by simp [csub]; omega
    rw [e1] at h
    rcases hv : J1[k - 1]? with _ | v
    · rw [Option.bind_eq_bind, Option.bind_some, hv] at h; simp at h
    · rw [Option.bind_eq_bind, Option.bind_some, hv] at h
      simp only [Option.bind_eq_bind, Option.bind_some, Option.pure_def, Option.some.injEq] at h
      have h1 := j1_pos (k - 1) (by omega) v hv
      rw [← h, tableLit, real_lit]
      have : (0 : ℝ) < v := by exact_mod_cast h1
      push_cast
      positivity

end GaussQuad.Asymptotic
