import Verif.Proofs.LegendreCheck
import Verif.Proofs.LegendreGauss
import Verif.Proofs.LegendreAngles
import Mathlib.Data.Int.ModEq
import Mathlib.Data.Nat.Factorial.Basic
import Mathlib.Analysis.Complex.Trigonometric
import Mathlib.Analysis.SpecialFunctions.Trigonometric.Basic
import Mathlib.Topology.Order.IntermediateValue

/-!
# What the kernel check of the Legendre tables means
-/

namespace GaussQuad.LegendreCheck
open LegendrePoly

/-- `10^30` -/
@[irreducible] def q30 : ℕ := 1000000000000000000000000000000

theorem q30_pos : (0 : ℝ) < q30 := by norm_num [q30]

/-! ## the recurrence -/

/-- `wseq p (j+1) = j! 10^(30 j) P_j(p / 10^30)` -/
def wseq (p : ℕ) : ℕ → ℤ
  | 0 => 0
  | 1 => 1
  | j + 2 => (2 * j + 1) * p * wseq p (j + 1) - j ^ 2 * q30 ^ 2 * wseq p j

theorem wseq_cast (p : ℕ) : ∀ j : ℕ, (wseq p (j + 1) : ℝ) = j.factorial * q30 ^ j * P j (p / q30)
  | 0 => by simp [wseq]
  | 1 => by simp [wseq, q30]; ring
  | j + 2 => by
    have h1 := wseq_cast p (j + 1)
    have h0 := wseq_cast p j
    have hr := P_rec j ((p : ℝ) / q30)
    have hq : (q30 : ℝ) ≠ 0 := by norm_num [q30]
    rw [wseq]
    push_cast
    rw [h1, h0, Nat.factorial_succ (j + 1), Nat.factorial_succ j]
    push_cast
    have e : ((j : ℝ) + 1 + 1) = j + 2 := by ring
    have hp : (p : ℝ) = (p / q30) * q30 := by field_simp
    rw [e]
    generalize (p : ℝ) / q30 = c at hr hp
    rw [hp]
    linear_combination (-((j : ℝ) + 1) * j.factorial * (q30 : ℝ) ^ (j + 2)) * hr

theorem loop_zero (M p j a b : ℕ) (k : ℕ → ℕ → Bool) : loop M p 0 j a b k = k a b := rfl

theorem nmul (x y : ℕ) : Nat.mul x y = x * y := rfl
theorem nadd (x y : ℕ) : Nat.add x y = x + y := rfl
theorem nsub (x y : ℕ) : Nat.sub x y = x - y := rfl
theorem nmod (x y : ℕ) : Nat.mod x y = x % y := rfl
theorem nsucc (x : ℕ) : Nat.succ x = x + 1 := rfl

theorem step_eq (M p j a b : ℕ) : step M p j a b =
    ((2 * j + 1) * p * b + j * j * 1000000000000000000000000000000000000000000000000000000000000 * (M - a)) % M := by
  unfold step
  simp only [nmul, nadd, nsub, nmod, nsucc]

theorem denom_eq (i D : ℕ) : denom i D = D * ((2 * i + 1) * (2 * i + 2) * 10000000000000000000000000000000000000000) := by
  unfold denom
  simp only [nmul, nadd, nsucc]

theorem iterate2_succ (g : ℕ → ℕ → ℕ → ℕ) (f j a b : ℕ) (k : ℕ → ℕ → Bool) : iterate2 g (f + 1) j a b k = iterate2 g f (j + 1) b (g j a b) k := rfl
theorem horner_succ (d : ℕ → ℕ → ℕ) (t i A B D : ℕ) (k : ℕ → ℕ → ℕ → Bool) : horner d t (i + 1) A B D k =
    horner d t i (d i D + t * B) (t * A) (d i D) k := rfl

theorem loop_succ (M p f j a b : ℕ) (k : ℕ → ℕ → Bool) : loop M p (f + 1) j a b k =
    loop M p f (j + 1) b (((2 * j + 1) * p * b + j * j * 1000000000000000000000000000000000000000000000000000000000000 * (M - a)) % M) k := by
  rw [← step_eq]
  unfold loop
  exact iterate2_succ ..

theorem loop_sound {M p : ℕ} (hM : 1 < M) {k : ℕ → ℕ → Bool} : ∀ (f j a b : ℕ), a < M → b < M → (a : ℤ) ≡ wseq p j [ZMOD M] →
    (b : ℤ) ≡ wseq p (j + 1) [ZMOD M] → loop M p f j a b k = true →
    ∃ a' b', a' < M ∧ b' < M ∧ (a' : ℤ) ≡ wseq p (j + f) [ZMOD M] ∧ (b' : ℤ) ≡ wseq p (j + f + 1) [ZMOD M] ∧ k a' b' = true := by
  intro f
  induction f with
  | zero => intro j a b ha hb h1 h2 h; exact ⟨a, b, ha, hb, h1, h2, h⟩
  | succ f ih =>
    intro j a b ha hb h1 h2 h
    rw [loop_succ] at h
    have := ih (j + 1) b _ hb (Nat.mod_lt _ (by omega)) h2 ?_ h
    · rw [show j + (f + 1) = j + 1 + f by omega]; exact this
    · have e : (((2 * j + 1) * p * b + j * j * 1000000000000000000000000000000000000000000000000000000000000 * (M - a) : ℕ) : ℤ) ≡
          wseq p (j + 2) [ZMOD M] := by
        push_cast [Nat.cast_sub ha.le]
        rw [wseq]
        have hq : ((q30 : ℕ) : ℤ) ^ 2 = 1000000000000000000000000000000000000000000000000000000000000 := by norm_num [q30]
        rw [hq]
        generalize (1000000000000000000000000000000000000000000000000000000000000 : ℤ) = Q
        have e1 : ((2 * j + 1) * p * b + j * j * Q * (M - a) : ℤ) = ((2 * j + 1) * p * b - j ^ 2 * Q * a) + M * (j * j * Q) := by ring
        rw [e1]
        refine Int.ModEq.trans (Int.modEq_iff_dvd.2 ⟨-(j * j * Q), by ring⟩ : _ ≡ (2 * j + 1) * p * b - j ^ 2 * Q * a [ZMOD M]) ?_
        exact (h2.mul_left _).sub (h1.mul_left _)
      rw [Int.natCast_mod]
      exact (Int.mod_modEq _ _).trans e

theorem decode {M r : ℕ} {v : ℤ} (hr : r < M) (h : (r : ℤ) ≡ v [ZMOD M]) (hv : 2 * |v| < M) :
    (nonneg M r = true ↔ 0 ≤ v) ∧ ((absv M r : ℕ) : ℤ) = |v| := by
  have hlt : (r : ℤ) % M = r := Int.emod_eq_of_lt (by positivity) (by exact_mod_cast hr)
  have hx : (r : ℤ) = v % M := by rw [← hlt]; exact h
  have hn : nonneg M r = true ↔ 2 * r ≤ M := by
    unfold nonneg; rw [Nat.ble_eq, nmul]
  rcases le_or_gt 0 v with h0 | h0
  · rw [abs_of_nonneg h0] at hv ⊢
    rw [Int.emod_eq_of_lt h0 (by linarith)] at hx
    have h1 : nonneg M r = true := hn.2 (by omega)
    refine ⟨by simp [h1, h0], ?_⟩
    unfold absv
    rw [h1]; exact hx
  · rw [abs_of_neg h0] at hv ⊢
    have h2 : v % M = v + M := by
      rw [← Int.add_emod_right, Int.emod_eq_of_lt (by omega) (by omega)]
    rw [h2] at hx
    have h1 : nonneg M r = false := by
      rw [← Bool.not_eq_true, hn]; omega
    refine ⟨by simp [h1]; omega, ?_⟩
    unfold absv
    rw [h1]
    show ((M - r : ℕ) : ℤ) = -v
    omega

theorem modulus_eq (n : ℕ) : modulus n = 2 ^ (120 * n) := rfl

/-- the scaled values fit into the modulus -/
theorem fits {n j : ℕ} (hn : 1 ≤ n) (h100 : n ≤ 100) (hj : j ≤ n) : 2 * (j.factorial * q30 ^ j) < modulus n := by
  have h1 : j.factorial * q30 ^ j ≤ n.factorial * q30 ^ n := by
    have : 0 < q30 := by norm_num [q30]
    exact Nat.mul_le_mul (Nat.factorial_le hj) (Nat.pow_le_pow_right this hj)
  have h2 : n.factorial * q30 ^ n ≤ (2 ^ 107) ^ n := by
    calc n.factorial * q30 ^ n ≤ 100 ^ n * q30 ^ n := by
          refine Nat.mul_le_mul_right _ ((Nat.factorial_le_pow n).trans ?_)
          exact Nat.pow_le_pow_left h100 n
      _ = (100 * q30) ^ n := (mul_pow ..).symm
      _ ≤ (2 ^ 107) ^ n := Nat.pow_le_pow_left (by norm_num [q30]) n
  rw [modulus_eq, pow_mul]
  calc 2 * (j.factorial * q30 ^ j) ≤ 2 * (2 ^ 107) ^ n := by omega
    _ ≤ 2 ^ n * (2 ^ 107) ^ n := by
      refine Nat.mul_le_mul_right _ ?_
      calc 2 = 2 ^ 1 := rfl
        _ ≤ 2 ^ n := Nat.pow_le_pow_right (by norm_num) hn
    _ = (2 ^ 108) ^ n := by rw [← mul_pow]; norm_num
    _ < (2 ^ 120) ^ n := Nat.pow_lt_pow_left (by norm_num) (by omega)

theorem wseq_fits {n j p : ℕ} (hn : 1 ≤ n) (h100 : n ≤ 100) (hj : j ≤ n) (hp : p < q30) : 2 * |wseq p (j + 1)| < modulus n := by
  have hq : (0 : ℝ) < q30 := by norm_num [q30]
  have hc : ((p : ℝ) / q30) ^ 2 < 1 := by
    have h1 : (p : ℝ) / q30 < 1 := by rw [div_lt_one hq]; exact_mod_cast hp
    have h0 : 0 ≤ (p : ℝ) / q30 := by positivity
    nlinarith
  have h : |(wseq p (j + 1) : ℝ)| ≤ (j.factorial * q30 ^ j : ℕ) := by
    rw [wseq_cast, abs_mul]
    push_cast
    rw [abs_of_nonneg (by positivity)]
    exact mul_le_of_le_one_right (by positivity) (abs_P_le _ hc)
  have h' : |wseq p (j + 1)| ≤ ((j.factorial * q30 ^ j : ℕ) : ℤ) := by exact_mod_cast h
  have := fits hn h100 hj
  zify at this
  push_cast at h'
  linarith

/-- the loop delivers sign and absolute value of the scaled `P_n` and `P_{n-1}` -/
theorem eval_sound {n p : ℕ} (hn : 1 ≤ n) (h100 : n ≤ 100) (hp : p < q30) {k : ℕ → ℕ → Bool} (h : loop (modulus n) p n 0 0 1 k = true) :
    ∃ a b, k a b = true ∧ (nonneg (modulus n) b = true ↔ 0 ≤ P n (p / q30)) ∧
      (absv (modulus n) b : ℝ) = n.factorial * q30 ^ n * |P n (p / q30)| ∧
      (n * (q30 * absv (modulus n) a) : ℝ) = n.factorial * q30 ^ n * |P (n - 1) (p / q30)| := by
  have hM : 1 < modulus n := by
    have := fits hn h100 (Nat.zero_le n); simp at this; omega
  obtain ⟨a, b, h1, h2, h3, h4, h5⟩ := loop_sound hM n 0 0 1 (by omega) hM (by simp [wseq])
    (by simp [wseq]) h
  rw [Nat.zero_add] at h3 h4
  obtain ⟨m, rfl⟩ : ∃ m, n = m + 1 := ⟨n - 1, by omega⟩
  have d1 := decode h1 h3 (wseq_fits hn h100 (by omega) hp)
  have d2 := decode h2 h4 (wseq_fits hn h100 le_rfl hp)
  have hq : (0 : ℝ) < q30 := by norm_num [q30]
  have hF : (0 : ℝ) < (m + 1).factorial * (q30 : ℝ) ^ (m + 1) := mul_pos (Nat.cast_pos.2 (Nat.factorial_pos _)) (pow_pos hq _)
  refine ⟨a, b, h5, ?_, ?_, ?_⟩
  · rw [d2.1, ← mul_nonneg_iff_of_pos_left hF, ← wseq_cast, Int.cast_nonneg_iff]
  · have : ((absv (modulus (m + 1)) b : ℤ) : ℝ) = ((|wseq p (m + 1 + 1)| : ℤ) : ℝ) := by rw [d2.2]
    rw [Int.cast_natCast, Int.cast_abs] at this
    rw [this, wseq_cast, abs_mul, abs_of_pos hF]
  · have : ((absv (modulus (m + 1)) a : ℤ) : ℝ) = ((|wseq p (m + 1)| : ℤ) : ℝ) := by rw [d1.2]
    rw [Int.cast_natCast, Int.cast_abs] at this
    rw [this, wseq_cast, abs_mul, abs_of_pos (mul_pos (Nat.cast_pos.2 (Nat.factorial_pos _)) (pow_pos hq _)), Nat.factorial_succ, Nat.add_sub_cancel, Nat.cast_mul, Nat.cast_succ, pow_succ]
    generalize (m.factorial : ℝ) = f
    generalize |P m ((p : ℝ) / q30)| = y
    ring

/-! ## the cosine series -/

theorem cosLoop_zero (t A B D : ℕ) (k : ℕ → ℕ → ℕ → Bool) : cosLoop t 0 A B D k = k A B D := rfl

theorem cosLoop_succ (t i A B D : ℕ) (k : ℕ → ℕ → ℕ → Bool) : cosLoop t (i + 1) A B D k =
    cosLoop t i (D * ((2 * i + 1) * (2 * i + 2) * 10000000000000000000000000000000000000000) + t * B) (t * A)
      (D * ((2 * i + 1) * (2 * i + 2) * 10000000000000000000000000000000000000000)) k := by
  rw [← denom_eq]
  unfold cosLoop
  exact horner_succ ..

/-- partial sums of the cosine series -/
noncomputable def cosSum (x : ℝ) (N : ℕ) : ℝ := ∑ i ∈ Finset.range N, (-1) ^ i * x ^ (2 * i) / (2 * i).factorial

theorem cosLoop_sound {t : ℕ} {x : ℝ} (hx : x ^ 2 = t / 10000000000000000000000000000000000000000) {k : ℕ → ℕ → ℕ → Bool} :
    ∀ (i A B D : ℕ), 0 < D → cosLoop t i A B D k = true → ∃ A' B' D' : ℕ, 0 < D' ∧ k A' B' D' = true ∧
      ((A' : ℝ) - B') / D' = cosSum x i + (-1) ^ i * x ^ (2 * i) / (2 * i).factorial * (((A : ℝ) - B) / D) := by
  intro i
  induction i with
  | zero => intro A B D hD h; exact ⟨A, B, D, hD, h, by simp [cosSum]⟩
  | succ i ih =>
    intro A B D hD h
    rw [cosLoop_succ] at h
    obtain ⟨A', B', D', h1, h2, h3⟩ := ih _ _ _ (by positivity) h
    refine ⟨A', B', D', h1, h2, ?_⟩
    rw [h3, cosSum, cosSum, Finset.sum_range_succ, add_assoc]
    congr 1
    have hf : ((2 * (i + 1)).factorial : ℝ) = (2 * i + 2) * ((2 * i + 1) * (2 * i).factorial) := by
      rw [show 2 * (i + 1) = (2 * i + 1) + 1 by ring, Nat.factorial_succ, Nat.factorial_succ]; push_cast; ring
    have hD' : (D : ℝ) ≠ 0 := by positivity
    have hf0 : ((2 * i).factorial : ℝ) ≠ 0 := by positivity
    have ht : (t : ℝ) = x ^ 2 * 10000000000000000000000000000000000000000 := by rw [hx]; field_simp
    push_cast
    rw [hf, ht]
    have e : x ^ (2 * (i + 1)) = x ^ (2 * i) * x ^ 2 := by rw [← pow_add]; congr 1
    rw [e, pow_succ (-1 : ℝ) i]
    have hQ : (10000000000000000000000000000000000000000 : ℝ) ≠ 0 := by norm_num
    generalize (10000000000000000000000000000000000000000 : ℝ) = Q at hQ
    have h21 : (2 * (i : ℝ) + 1) ≠ 0 := by positivity
    have h22 : (2 * (i : ℝ) + 2) ≠ 0 := by positivity
    field_simp
    ring

theorem cosSum_re (x : ℝ) : ∀ N : ℕ, (∑ m ∈ Finset.range (2 * N), (Complex.I * x) ^ m / (m.factorial : ℂ)).re = cosSum x N
  | 0 => by simp [cosSum]
  | N + 1 => by
    rw [show 2 * (N + 1) = 2 * N + 1 + 1 by ring, Finset.sum_range_succ, Finset.sum_range_succ, Complex.add_re, Complex.add_re, cosSum_re x N,
      cosSum, cosSum, Finset.sum_range_succ]
    have h1 : (Complex.I * x) ^ (2 * N) = (((-1) ^ N * x ^ (2 * N) : ℝ) : ℂ) := by
      rw [mul_pow, pow_mul Complex.I, Complex.I_sq]; push_cast; rfl
    have h2 : (Complex.I * x) ^ (2 * N + 1) / (((2 * N + 1).factorial : ℕ) : ℂ) = (((-1) ^ N * x ^ (2 * N) * x / (2 * N + 1).factorial : ℝ) : ℂ) * Complex.I := by
      rw [pow_succ, h1]; push_cast; ring
    have h3 : (Complex.I * x) ^ (2 * N) / (((2 * N).factorial : ℕ) : ℂ) = (((-1) ^ N * x ^ (2 * N) / (2 * N).factorial : ℝ) : ℂ) := by
      rw [h1]; push_cast; rfl
    rw [h2, h3, Complex.ofReal_re, Complex.re_ofReal_mul, Complex.I_re, mul_zero, add_zero]

theorem cos_sub_cosSum {x : ℝ} (h0 : 0 ≤ x) (h1 : x ≤ 1.6) : |Real.cos x - cosSum x 14| ≤ 1 / 10 ^ 22 := by
  have hb := Complex.exp_bound' (x := Complex.I * x) (n := 28) (by simp [abs_of_nonneg h0]; linarith)
  have hre := Complex.abs_re_le_norm (Complex.exp (Complex.I * x) - ∑ m ∈ Finset.range 28, (Complex.I * x) ^ m / (m.factorial : ℂ))
  rw [Complex.sub_re, show (28 : ℕ) = 2 * 14 from rfl, cosSum_re, mul_comm Complex.I, Complex.exp_ofReal_mul_I_re] at hre
  rw [mul_comm Complex.I] at hb
  refine (hre.trans hb).trans ?_
  have hn : ‖(x : ℂ) * Complex.I‖ = x := by simp [abs_of_nonneg h0]
  rw [hn]
  have : x ^ 28 ≤ 1.6 ^ 28 := by gcongr
  calc x ^ 28 / (Nat.factorial 28) * 2 ≤ 1.6 ^ 28 / (Nat.factorial 28) * 2 := by gcongr
    _ ≤ _ := by norm_num [Nat.factorial]

theorem cosOk_sound {T p : ℕ} (hT : T < 160000000000000000000) (h : cosOk T p = true) :
    |Real.cos (T / 100000000000000000000) - p / q30| ≤ 1.981 / 10 ^ 16 := by
  have hx : ((T : ℝ) / 100000000000000000000) ^ 2 = ((T * T : ℕ) : ℝ) / 10000000000000000000000000000000000000000 := by
    rw [div_pow]; push_cast; norm_num [sq]
  obtain ⟨A, B, D, hD, h1, h2⟩ := cosLoop_sound hx 14 0 0 1 one_pos h
  rw [show (((0 : ℕ) : ℝ) - ((0 : ℕ) : ℝ)) / ((1 : ℕ) : ℝ) = 0 by norm_num, mul_zero, add_zero] at h2
  have hT' : (T : ℝ) < 160000000000000000000 := by exact_mod_cast hT
  have hb := cos_sub_cosSum (x := (T : ℝ) / 100000000000000000000) (by positivity) (by rw [div_le_iff₀ (by norm_num)]; norm_num; linarith)
  rw [Bool.and_eq_true, Nat.ble_eq, Nat.ble_eq] at h1
  simp only [nmul, nadd] at h1
  obtain ⟨g1, g2⟩ := h1
  have g1' : (1000000000000000000000000000000 * A : ℝ) ≤ 1000000000000000000000000000000 * B + (p + 198000000000000) * D := by exact_mod_cast g1
  have g2' : (1000000000000000000000000000000 * B + p * D : ℝ) ≤ 1000000000000000000000000000000 * A + 198000000000000 * D := by exact_mod_cast g2
  have hD' : (0 : ℝ) < D := by exact_mod_cast hD
  have hq : (q30 : ℝ) = 1000000000000000000000000000000 := by norm_num [q30]
  have k : |cosSum (T / 100000000000000000000) 14 - p / q30| ≤ 198000000000000 / 1000000000000000000000000000000 := by
    rw [← h2, hq, abs_le]
    constructor
    · rw [neg_le_sub_iff_le_add, div_le_iff₀ (by norm_num)]
      have : ((A : ℝ) - B) / D = (A - B) * (1 / D) := by ring
      have e : (p : ℝ) * D ≤ 1000000000000000000000000000000 * (A - B) + 198000000000000 * D := by linarith
      have e2 : (p : ℝ) ≤ (1000000000000000000000000000000 * (A - B) + 198000000000000 * D) / D := by rw [le_div_iff₀ hD']; exact e
      refine e2.trans (le_of_eq ?_)
      field_simp
    · rw [sub_le_iff_le_add, div_le_iff₀ hD']
      have : (A : ℝ) - B ≤ (198000000000000 / 1000000000000000000000000000000 + p / 1000000000000000000000000000000) * D := by
        rw [← add_div, div_mul_eq_mul_div, le_div_iff₀ (by norm_num)]
        linarith
      exact this
  calc |Real.cos (T / 100000000000000000000) - p / q30| ≤ |Real.cos (T / 100000000000000000000) - cosSum (T / 100000000000000000000) 14| +
        |cosSum (T / 100000000000000000000) 14 - p / q30| := abs_sub_le _ _ _
    _ ≤ 1 / 10 ^ 22 + 198000000000000 / 1000000000000000000000000000000 := add_le_add hb k
    _ ≤ _ := by norm_num

/-! ## the weight -/

theorem omega_close {n : ℕ} (hn : 1 ≤ n) (h100 : n ≤ 100) {ξ c w : ℝ} (hξ : ξ ∈ Set.Ioo (-1 : ℝ) 1) (hc : c ∈ Set.Ioo (-1 : ℝ) 1)
    (hd : |ξ - c| ≤ 2 / 10 ^ 30) (hroot : P n ξ = 0) (hP : |P n c| ≤ 1 / 10 ^ 25) (h1 : 1 ≤ (n : ℝ) ^ 2 * |P (n - 1) c| ^ 2)
    (hw : |w - 2 * (1 - c ^ 2) / ((n : ℝ) ^ 2 * |P (n - 1) c| ^ 2)| ≤ 4.9 / 10 ^ 17) : |w - legOmega n ξ| ≤ 5 / 10 ^ 17 := by
  obtain ⟨m, rfl⟩ : ∃ m, n = m + 1 := ⟨n - 1, by omega⟩
  rw [Nat.add_sub_cancel] at h1 hw
  have hom := legOmega_eq m ξ
  have hE := E_lipschitz m hξ hc
  have hc2 : c ^ 2 < 1 := by nlinarith [hc.1, hc.2]
  have hx2 : ξ ^ 2 < 1 := by nlinarith [hξ.1, hξ.2]
  have hPm := abs_P_le m hc2
  have hm : ((m + 1 : ℕ) : ℝ) ≤ 100 := by exact_mod_cast h100
  have hm1 : (1 : ℝ) ≤ ((m + 1 : ℕ) : ℝ) := by exact_mod_cast hn
  have hEc : |E m c - |P m c| ^ 2| ≤ 3 / 10 ^ 25 := by
    have e : E m c - |P m c| ^ 2 = P (m + 1) c * (P (m + 1) c - 2 * c * P m c) := by rw [E, sq_abs]; ring
    have hP1 := abs_P_le (m + 1) hc2
    have hcabs : |c| ≤ 1 := abs_le.2 ⟨hc.1.le, hc.2.le⟩
    have : |P (m + 1) c - 2 * c * P m c| ≤ 3 := by
      calc _ ≤ |P (m + 1) c| + |2 * c * P m c| := abs_sub _ _
        _ = |P (m + 1) c| + 2 * |c| * |P m c| := by rw [abs_mul, abs_mul, abs_two]
        _ ≤ 1 + 2 * 1 * 1 := by gcongr
        _ = 3 := by norm_num
    rw [e, abs_mul]
    calc _ ≤ 1 / 10 ^ 25 * (3 : ℝ) := by gcongr
      _ = _ := by norm_num
  rw [show ((m : ℝ) + 1) = ((m + 1 : ℕ) : ℝ) by push_cast; rfl] at hom
  generalize ((m + 1 : ℕ) : ℝ) = N at hm hm1 hom h1 hw
  generalize legOmega (m + 1) ξ = om at hom ⊢
  have hDd : |N ^ 2 * E m ξ - N ^ 2 * |P m c| ^ 2| ≤ 3.1 / 10 ^ 21 := by
    rw [← mul_sub, abs_mul, abs_of_nonneg (by positivity)]
    have : |E m ξ - |P m c| ^ 2| ≤ 3.1 / 10 ^ 25 := by
      calc _ ≤ |E m ξ - E m c| + |E m c - |P m c| ^ 2| := abs_sub_le _ _ _
        _ ≤ 2 * (2 / 10 ^ 30) + 3 / 10 ^ 25 := add_le_add (hE.trans (by gcongr)) hEc
        _ ≤ _ := by norm_num
    calc N ^ 2 * |E m ξ - |P m c| ^ 2| ≤ 100 ^ 2 * (3.1 / 10 ^ 25) := by gcongr
      _ = _ := by norm_num
  generalize N ^ 2 * E m ξ = D at hom hDd
  generalize N ^ 2 * |P m c| ^ 2 = D' at h1 hw hDd
  have hD := abs_le.1 hDd
  have hD0 : 0.9 ≤ D := by norm_num at hD ⊢; linarith
  have hDpos : 0 < D := by linarith
  have hD'pos : 0 < D' := by linarith
  have e1 : om = 2 * (1 - ξ ^ 2) / D := by rw [eq_div_iff hDpos.ne']; exact hom
  have e2 : 2 * (1 - c ^ 2) / D' - om = 2 * (ξ - c) * (ξ + c) / D + 2 * (1 - c ^ 2) * (D - D') / (D * D') := by
    rw [e1]; field_simp; ring
  have b1 : |2 * (ξ - c) * (ξ + c) / D| ≤ 1 / 10 ^ 28 := by
    rw [abs_div, abs_of_pos hDpos, div_le_iff₀ hDpos, abs_mul, abs_mul, abs_two]
    have : |ξ + c| ≤ 2 := abs_le.2 ⟨by linarith [hξ.1, hc.1], by linarith [hξ.2, hc.2]⟩
    calc 2 * |ξ - c| * |ξ + c| ≤ 2 * (2 / 10 ^ 30) * 2 := by gcongr
      _ ≤ 1 / 10 ^ 28 * 0.9 := by norm_num
      _ ≤ _ := by gcongr
  have b2 : |2 * (1 - c ^ 2) * (D - D') / (D * D')| ≤ 1 / 10 ^ 20 := by
    rw [abs_div, abs_of_pos (mul_pos hDpos hD'pos), div_le_iff₀ (mul_pos hDpos hD'pos), abs_mul, abs_of_nonneg (by nlinarith)]
    calc 2 * (1 - c ^ 2) * |D - D'| ≤ 2 * 1 * (3.1 / 10 ^ 21) := by
          gcongr
          nlinarith [sq_nonneg c]
      _ ≤ 1 / 10 ^ 20 * (0.9 * 1) := by norm_num
      _ ≤ _ := by gcongr
  calc |w - om| ≤ |w - 2 * (1 - c ^ 2) / D'| + |2 * (1 - c ^ 2) / D' - om| := abs_sub_le _ _ _
    _ ≤ 4.9 / 10 ^ 17 + (1 / 10 ^ 28 + 1 / 10 ^ 20) := by
      refine add_le_add hw ?_
      rw [e2]
      exact (abs_add_le _ _).trans (add_le_add b1 b2)
    _ ≤ _ := by norm_num

theorem factorial_eq : ∀ n : ℕ, factorial n = n.factorial
  | 0 => rfl
  | n + 1 => by
    have : factorial (n + 1) = (n + 1) * factorial n := rfl
    rw [this, factorial_eq n, Nat.factorial_succ]

/-- what one accepted table entry means -/
theorem entry_sound {n T W p : ℕ} (hn : 1 ≤ n) (h100 : n ≤ 100) (hp2 : 2 < p) (hpq : p + 2 < q30) (hT : T < 160000000000000000000)
    (h : entryOk (modulus n) (n.factorial * q30 ^ n) n T W p = true) :
    ∃ ξ : ℝ, |ξ - p / q30| ≤ 1 / q30 ∧ P n ξ = 0 ∧ |Real.cos (T / 100000000000000000000) - ξ| ≤ 2 / 10 ^ 16 ∧
      |(W : ℝ) / 100000000000000000000 - legOmega n ξ| ≤ 5 / 10 ^ 17 := by
  have hq := q30_pos
  unfold entryOk at h
  obtain ⟨a0, b0, h, s0, -, -⟩ := eval_sound hn h100 (by rw [← Nat.sub_one]; omega) h
  obtain ⟨a, b, h, s1, eA, eL⟩ := eval_sound hn h100 (by rw [nsucc]; omega) h
  rw [Bool.and_eq_true, Bool.and_eq_true] at h
  obtain ⟨⟨hx, hcos⟩, hw⟩ := h
  have hcos := cosOk_sound hT hcos
  have ep : ((Nat.pred p : ℕ) : ℝ) / q30 = p / q30 - 1 / q30 := by
    rw [← Nat.sub_one, Nat.cast_sub (by omega), Nat.cast_one, sub_div]
  have es : ((Nat.succ p : ℕ) : ℝ) / q30 = p / q30 + 1 / q30 := by
    rw [Nat.cast_succ, add_div]
  have hle : (p : ℝ) / q30 - 1 / q30 ≤ p / q30 + 1 / q30 := by
    have : 0 < 1 / (q30 : ℝ) := by positivity
    linarith
  obtain ⟨ξ, hξ, hroot⟩ : ∃ ξ ∈ Set.Icc ((p : ℝ) / q30 - 1 / q30) (p / q30 + 1 / q30), P n ξ = 0 := by
    rw [ep] at s0
    rw [es] at s1
    have hcont : ContinuousOn (P n) (Set.Icc ((p : ℝ) / q30 - 1 / q30) (p / q30 + 1 / q30)) := (continuous n).continuousOn
    rcases hb0 : nonneg (modulus n) b0 with _ | _ <;> rcases hb1 : nonneg (modulus n) b with _ | _
    · rw [hb0, hb1] at hx; simp at hx
    · have g0 : P n (p / q30 - 1 / q30) < 0 := by
        rw [← not_le, ← s0, hb0]; simp
      have g1 : 0 ≤ P n (p / q30 + 1 / q30) := s1.1 hb1
      exact intermediate_value_Icc hle hcont ⟨g0.le, g1⟩
    · have g0 : 0 ≤ P n (p / q30 - 1 / q30) := s0.1 hb0
      have g1 : P n (p / q30 + 1 / q30) < 0 := by
        rw [← not_le, ← s1, hb1]; simp
      exact intermediate_value_Icc' hle hcont ⟨g1.le, g0⟩
    · rw [hb0, hb1] at hx; simp at hx
  have hq30 : (q30 : ℝ) = 10 ^ 30 := by norm_num [q30]
  have hp2' : (2 : ℝ) < p := by exact_mod_cast hp2
  have hpq' : (p : ℝ) + 2 < q30 := by exact_mod_cast hpq
  have hlo : 0 < (p : ℝ) / q30 - 1 / q30 := by rw [← sub_div]; apply div_pos _ hq; linarith
  have hhi : (p : ℝ) / q30 + 1 / q30 < 1 := by rw [← add_div, div_lt_one hq]; linarith
  have hdist : |ξ - p / q30| ≤ 1 / q30 := abs_le.2 ⟨by linarith [hξ.1], by linarith [hξ.2]⟩
  refine ⟨ξ, hdist, hroot, ?_, ?_⟩
  · calc _ ≤ |Real.cos (T / 100000000000000000000) - p / q30| + |p / q30 - ξ| := abs_sub_le _ _ _
      _ ≤ 1.981 / 10 ^ 16 + 1 / 10 ^ 30 := by
        refine add_le_add hcos ?_
        rw [abs_sub_comm, ← hq30]; exact hdist
      _ ≤ _ := by norm_num
  · rw [es] at eA eL
    unfold weightOk at hw
    simp only [Bool.and_eq_true, Nat.ble_eq, nmul, nadd, nsucc] at hw
    obtain ⟨⟨w1, w2⟩, w3, w4⟩ := hw
    have hF : (0 : ℝ) < (n.factorial : ℝ) * (q30 : ℝ) ^ n := mul_pos (Nat.cast_pos.2 (Nat.factorial_pos _)) (pow_pos hq _)
    have ec : ((p : ℝ) + 1) = (p / q30 + 1 / q30) * q30 := by field_simp
    generalize hc : (p : ℝ) / q30 + 1 / q30 = c at *
    have eL' : (((n * (1000000000000000000000000000000 * absv (modulus n) a) : ℕ)) : ℝ) = n.factorial * q30 ^ n * |P (n - 1) c| := by
      rw [← eL]
      push_cast
      rw [hq30]; norm_num
    have eF : ((n.factorial * q30 ^ n : ℕ) : ℝ) = n.factorial * (q30 : ℝ) ^ n := by push_cast; rfl
    generalize n * (1000000000000000000000000000000 * absv (modulus n) a) = L at *
    generalize absv (modulus n) b = A at *
    generalize n.factorial * q30 ^ n = F' at *
    generalize (n.factorial : ℝ) * (q30 : ℝ) ^ n = F at *
    have v1 : (A : ℝ) * 10000000000000000000000000 ≤ F' := by exact_mod_cast w1
    have v2 : (F' : ℝ) * F' ≤ n * n * (L * L) := by exact_mod_cast w2
    have v3 : (W : ℝ) * 1000000000000000000000000000000000000000000000000000000000000 * (n * n * (L * L)) + 200000000000000000000 * ((p + 1) * (p + 1) * (F' * F')) ≤
      200000000000000000000000000000000000000000000000000000000000000000000000000000000 * (F' * F') + 4900000000000000000000000000000000000000000000000000000000000000 * (n * n * (L * L)) := by
      exact_mod_cast w3
    have v4 : (200000000000000000000000000000000000000000000000000000000000000000000000000000000 : ℝ) * (F' * F') ≤
      W * 1000000000000000000000000000000000000000000000000000000000000 * (n * n * (L * L)) + 200000000000000000000 * ((p + 1) * (p + 1) * (F' * F')) + 4900000000000000000000000000000000000000000000000000000000000000 * (n * n * (L * L)) := by
      exact_mod_cast w4
    rw [eF, eA] at v1
    rw [eF, eL'] at v2 v3 v4
    rw [ec, hq30] at v3 v4
    have hF2 : 0 < F ^ 2 := by positivity
    have u2 : 1 ≤ (n : ℝ) ^ 2 * |P (n - 1) c| ^ 2 := by
      have : F ^ 2 * 1 ≤ F ^ 2 * ((n : ℝ) ^ 2 * |P (n - 1) c| ^ 2) := by nlinarith
      exact le_of_mul_le_mul_left this hF2
    have hF3 : 0 < F ^ 2 * 10 ^ 60 := by positivity
    have u3 : W * ((n : ℝ) ^ 2 * |P (n - 1) c| ^ 2) + 2 * 10 ^ 20 * c ^ 2 ≤ 2 * 10 ^ 20 + 4900 * ((n : ℝ) ^ 2 * |P (n - 1) c| ^ 2) := by
      refine le_of_mul_le_mul_left ?_ hF3
      linear_combination v3
    have u4 : 2 * 10 ^ 20 ≤ W * ((n : ℝ) ^ 2 * |P (n - 1) c| ^ 2) + 2 * 10 ^ 20 * c ^ 2 + 4900 * ((n : ℝ) ^ 2 * |P (n - 1) c| ^ 2) := by
      refine le_of_mul_le_mul_left ?_ hF3
      linear_combination v4
    refine omega_close hn h100 (c := c) ⟨by linarith [hξ.1], by linarith [hξ.2]⟩ ⟨by linarith, by linarith⟩ ?_ hroot ?_ u2 ?_
    · rw [abs_le]
      have : (1 : ℝ) / q30 = 1 / 10 ^ 30 := by rw [hq30]
      rw [this] at hc hξ
      constructor
      · linarith [hξ.1]
      · have := hξ.2
        norm_num; linarith
    · rw [le_div_iff₀ (by norm_num)]
      have : F * (|P n c| * 10 ^ 25) ≤ F * 1 := by linarith
      exact le_of_mul_le_mul_left this hF
    · generalize (n : ℝ) ^ 2 * |P (n - 1) c| ^ 2 = d at u2 u3 u4 ⊢
      have hd : 0 < d := by linarith
      have e : (W : ℝ) / 100000000000000000000 - 2 * (1 - c ^ 2) / d = (W * d - 2 * 10 ^ 20 * (1 - c ^ 2)) / (10 ^ 20 * d) := by
        rw [show (100000000000000000000 : ℝ) = 10 ^ 20 by norm_num]
        field_simp
      rw [e, abs_div, abs_of_pos (show 0 < 10 ^ 20 * d by positivity), div_le_iff₀ (by positivity), abs_le]
      constructor
      · norm_num at u3 u4 ⊢; linarith
      · norm_num at u3 u4 ⊢; linarith

/-! ## rows -/

theorem rowAll_sound {M F n : ℕ} : ∀ {Ts Ws : List ℤ} {ps : List ℕ}, rowAll M F n Ts Ws ps = true → ∀ j (hj : j < ps.length),
    ∃ T W : ℤ, Ts[j]? = some T ∧ Ws[j]? = some W ∧ entryOk M F n T.toNat W.toNat ps[j] = true ∧ 2 < ps[j] ∧
      ps[j] + 2 < 1000000000000000000000000000000 ∧ 0 ≤ T ∧ T < 160000000000000000000 ∧ 0 ≤ W
  | [], [], [], _, j, hj => absurd hj (by simp)
  | T :: Ts, W :: Ws, p :: ps, h, j, hj => by
    rw [rowAll, Bool.and_eq_true, Bool.and_eq_true, decide_eq_true_eq] at h
    obtain ⟨⟨h1, h2⟩, h3⟩ := h
    cases j with
    | zero => exact ⟨T, W, rfl, rfl, h1, h2⟩
    | succ j =>
      obtain ⟨T', W', g⟩ := rowAll_sound h3 j (by simpa using hj)
      exact ⟨T', W', g⟩

/-- what an accepted row of degree `n` means -/
theorem row_sound {n i : ℕ} (hn : 1 ≤ n) (h100 : n ≤ 100) {T W : List (List ℤ)} {R : List (List ℕ)} (h : tableRow n T W R i = true) :
    ∃ ξ t w : ℕ → ℝ, (∀ j ≤ i, Bogaert.table2 T i j = some (t j) ∧ Bogaert.table2 W i j = some (w j) ∧ 0 < ξ j ∧ P n (ξ j) = 0 ∧
      |Real.cos (t j) - ξ j| ≤ 2 / 10 ^ 16 ∧ |w j - legOmega n (ξ j)| ≤ 5 / 10 ^ 17) ∧ ∀ j l, j < l → l ≤ i → ξ j < ξ l := by
  unfold tableRow at h
  rcases hT : T[i]? with _ | ts
  · rw [hT] at h; simp at h
  rcases hW : W[i]? with _ | ws
  · rw [hT, hW] at h; simp at h
  rcases hR : R[i]? with _ | ps
  · rw [hT, hW, hR] at h; simp at h
  rw [hT, hW, hR] at h
  simp only [Bool.and_eq_true] at h
  obtain ⟨h1, h2, h3⟩ := h
  unfold sorted at h2
  rw [decide_eq_true_eq] at h2 h3
  have eF : Nat.mul (factorial n) (Nat.pow 10 (Nat.mul 30 n)) = n.factorial * q30 ^ n := by
    have : Nat.pow 10 (Nat.mul 30 n) = 10 ^ (30 * n) := rfl
    have e : q30 = 10 ^ 30 := by norm_num [q30]
    rw [nmul, this, factorial_eq, pow_mul, e]
  rw [eF] at h1
  have hq := q30_pos
  have hq30 : q30 = 1000000000000000000000000000000 := by norm_num [q30]
  have key : ∀ j, ∃ ξ t w : ℝ, ∀ hj : j < ps.length, Bogaert.table2 T i j = some t ∧ Bogaert.table2 W i j = some w ∧ 2 < ps[j] ∧
      |ξ - ps[j] / q30| ≤ 1 / q30 ∧ P n ξ = 0 ∧
      |Real.cos t - ξ| ≤ 2 / 10 ^ 16 ∧ |w - legOmega n ξ| ≤ 5 / 10 ^ 17 := by
    intro j
    by_cases hj : j < ps.length
    · obtain ⟨a, b, g1, g2, g3, g4, g5, g6, g7, g8⟩ := rowAll_sound h1 j hj
      rw [← hq30] at g5
      obtain ⟨ξ, f1, f2, f3, f4⟩ := entry_sound hn h100 g4 g5 (by omega) g3
      refine ⟨ξ, tableLit a, tableLit b, fun _ => ⟨by simp [Bogaert.table2, hT, g1], by simp [Bogaert.table2, hW, g2], g4, f1, f2, ?_, ?_⟩⟩
      · have : ((a.toNat : ℕ) : ℝ) = a := by
          have := Int.toNat_of_nonneg g6
          exact_mod_cast congrArg (Int.cast : ℤ → ℝ) this
        rw [this] at f3
        simp only [tableLit, real_lit]
        push_cast
        exact f3
      · have : ((b.toNat : ℕ) : ℝ) = b := by
          have := Int.toNat_of_nonneg g8
          exact_mod_cast congrArg (Int.cast : ℤ → ℝ) this
        rw [this] at f4
        simp only [tableLit, real_lit]
        push_cast
        exact f4
    · exact ⟨0, 0, 0, fun h => absurd h hj⟩
  choose ξ t w hk using key
  refine ⟨ξ, t, w, ?_, ?_⟩
  · intro j hj
    have hj' : j < ps.length := by omega
    obtain ⟨a1, a2, a3, a4, a5, a6, a7⟩ := hk j hj'
    refine ⟨a1, a2, ?_, a5, a6, a7⟩
    have a3' : (2 : ℝ) < ps[j] := by exact_mod_cast a3
    have : 1 / (q30 : ℝ) < ps[j] / q30 := by gcongr; linarith
    linarith [(abs_le.1 a4).1]
  · intro j l hjl hl
    have hj' : j < ps.length := by omega
    have hl' : l < ps.length := by omega
    have b1 := (hk j hj').2.2.2.1
    have b2 := (hk l hl').2.2.2.1
    have b3 := List.pairwise_iff_getElem.1 h2 j l hj' hl' hjl
    have b3' : ((ps[j] : ℝ) + 1) + 1 < ps[l] := by
      have : ((ps[j] + 2 : ℕ) : ℝ) < ps[l] := by exact_mod_cast b3
      push_cast at this; linarith
    have b4 : (ps[j] : ℝ) / q30 + 1 / q30 + 1 / q30 < ps[l] / q30 := by
      rw [← add_div, ← add_div]; gcongr
    linarith [(abs_le.1 b1).2, (abs_le.1 b2).1]

/-! ## the middle pair of odd degrees -/

/-- `1 3 5 ⋯ (2m-1)` and `2 4 6 ⋯ (2m)` -/
def oddProd : ℕ → ℕ
  | 0 => 1
  | m + 1 => oddProd m * (2 * m + 1)

def evenProd : ℕ → ℕ
  | 0 => 1
  | m + 1 => evenProd m * (2 * m + 2)

/-- `2 / (c / 10^20)²` against `2 b² / (n² a²)` to within `5e-17`, for `n = 2 m + 1` -/
def midOk (m : ℕ) : Bool :=
  match LegendreData.CL[2 * m + 1]? with
  | none => false
  | some c =>
    let C := c.natAbs ^ 2
    let A := ((2 * m + 1) * oddProd m) ^ 2
    let B := evenProd m ^ 2
    decide (0 < C ∧ 2 * B * C * 10 ^ 17 ≤ (2 * 10 ^ 57 + 5 * C) * A ∧ 2 * 10 ^ 57 * A ≤ (2 * B * 10 ^ 17 + 5 * A) * C)

theorem mid_ok : ∀ m < 50, midOk m = true := by decide +kernel

theorem P_at_zero : ∀ m : ℕ, P (2 * m) 0 ^ 2 * (evenProd m : ℝ) ^ 2 = (oddProd m : ℝ) ^ 2 ∧ P (2 * m + 1) 0 = 0
  | 0 => by simp [oddProd, evenProd]
  | m + 1 => by
    obtain ⟨h1, h2⟩ := P_at_zero m
    have r1 := P_rec (2 * m) 0
    have r2 := P_rec (2 * m + 1) 0
    have e1 : 2 * (m + 1) = 2 * m + 2 := by ring
    have hz : P (2 * m + 3) 0 = 0 := by
      have : ((2 * m + 1 : ℕ) : ℝ) + 2 ≠ 0 := by positivity
      rw [show 2 * m + 1 + 2 = 2 * m + 3 from rfl] at r2
      rw [h2] at r2
      have : (((2 * m + 1 : ℕ) : ℝ) + 2) * P (2 * m + 3) 0 = 0 := by rw [r2]; ring
      exact (mul_eq_zero.1 this).resolve_left (by positivity)
    refine ⟨?_, by rw [e1]; exact hz⟩
    rw [e1, oddProd, evenProd]
    push_cast at r1 ⊢
    have r1' : (2 * (m : ℝ) + 2) * P (2 * m + 2) 0 = -((2 * m + 1) * P (2 * m) 0) := by rw [r1]; ring
    have r3 : (2 * (m : ℝ) + 2) ^ 2 * P (2 * m + 2) 0 ^ 2 = (2 * m + 1) ^ 2 * P (2 * m) 0 ^ 2 := by
      rw [← mul_pow, r1']; ring
    linear_combination (evenProd m : ℝ) ^ 2 * r3 + (2 * (m : ℝ) + 1) ^ 2 * h1

theorem mid_sound {m : ℕ} (hm : m < 50) : P (2 * m + 1) 0 = 0 ∧ ∀ c, LegendreData.CL[2 * m + 1]? = some c →
    |2 / (tableLit c * tableLit c) - legOmega (2 * m + 1) 0| ≤ 5 / 10 ^ 17 := by
  obtain ⟨h1, h2⟩ := P_at_zero m
  refine ⟨h2, fun c hc => ?_⟩
  have h := mid_ok m hm
  unfold midOk at h
  rw [hc] at h
  simp only [decide_eq_true_eq] at h
  obtain ⟨g0, g1, g2⟩ := h
  have hom := legOmega_eq (2 * m) 0
  rw [E, h2] at hom
  have hcsq : ((c.natAbs ^ 2 : ℕ) : ℝ) = (c : ℝ) ^ 2 := by
    rw [Nat.cast_pow, Nat.cast_natAbs, Int.cast_abs, sq_abs]
  have eA : ((((2 * m + 1) * oddProd m) ^ 2 : ℕ) : ℝ) = ((2 * m + 1) * oddProd m : ℝ) ^ 2 := by push_cast; ring
  have eB : ((evenProd m ^ 2 : ℕ) : ℝ) = (evenProd m : ℝ) ^ 2 := by push_cast; ring
  have hodd : ∀ k, 0 < oddProd k := by
    intro k; induction k with
    | zero => simp [oddProd]
    | succ k ih => rw [oddProd]; positivity
  have heven : ∀ k, 0 < evenProd k := by
    intro k; induction k with
    | zero => simp [evenProd]
    | succ k ih => rw [evenProd]; positivity
  have hA : 0 < ((2 * m + 1) * oddProd m : ℝ) ^ 2 := by
    have := hodd m
    positivity
  have hB : 0 < (evenProd m : ℝ) ^ 2 := by
    have := heven m
    positivity
  have g0' : (0 : ℝ) < ((c.natAbs ^ 2 : ℕ) : ℝ) := by exact_mod_cast g0
  have g1' : (2 : ℝ) * ((evenProd m ^ 2 : ℕ) : ℝ) * ((c.natAbs ^ 2 : ℕ) : ℝ) * 10 ^ 17 ≤ (2 * 10 ^ 57 + 5 * ((c.natAbs ^ 2 : ℕ) : ℝ)) * ((((2 * m + 1) * oddProd m) ^ 2 : ℕ) : ℝ) := by
    exact_mod_cast g1
  have g2' : (2 : ℝ) * 10 ^ 57 * ((((2 * m + 1) * oddProd m) ^ 2 : ℕ) : ℝ) ≤ (2 * ((evenProd m ^ 2 : ℕ) : ℝ) * 10 ^ 17 + 5 * ((((2 * m + 1) * oddProd m) ^ 2 : ℕ) : ℝ)) * ((c.natAbs ^ 2 : ℕ) : ℝ) := by
    exact_mod_cast g2
  rw [hcsq] at g0' g1' g2'
  rw [eA, eB] at g1' g2'
  have hom2 : legOmega (2 * m + 1) 0 = 2 * (evenProd m : ℝ) ^ 2 / ((2 * m + 1) * oddProd m : ℝ) ^ 2 := by
    rw [eq_div_iff hA.ne']
    have : legOmega (2 * m + 1) 0 * ((2 * m + 1) ^ 2 * (P (2 * m) 0 ^ 2 * (evenProd m : ℝ) ^ 2)) = 2 * (evenProd m : ℝ) ^ 2 := by
      push_cast at hom
      linear_combination (evenProd m : ℝ) ^ 2 * hom
    rw [h1] at this
    rw [← this]; ring
  have e1 : 2 / (tableLit c * tableLit c : ℝ) = 2 * 10 ^ 40 / (c : ℝ) ^ 2 := by
    simp only [tableLit, real_lit]
    push_cast
    rw [← sq, div_pow, div_div_eq_mul_div]
    norm_num
  rw [hom2, e1]
  generalize (c : ℝ) ^ 2 = C at *
  generalize ((2 * m + 1) * oddProd m : ℝ) ^ 2 = A at *
  generalize (evenProd m : ℝ) ^ 2 = B at *
  rw [div_sub_div _ _ g0'.ne' hA.ne', abs_div, abs_of_pos (mul_pos g0' hA), div_le_iff₀ (mul_pos g0' hA), abs_le]
  constructor
  · norm_num at g1' g2' ⊢; nlinarith
  · norm_num at g1' g2' ⊢; nlinarith

end GaussQuad.LegendreCheck
