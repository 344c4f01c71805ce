import Verif.Spec.EigenF64
import Verif.Proofs.Perturb
import Verif.Proofs.GolubWelschTheory
import Verif.Proofs.TrigExists

/-! # A backward stable binary64 eigen-solver exists: round the exact decomposition -/

set_option exponentiation.threshold 3000

namespace GaussQuad.F64
open Spec

theorem exists_near (s : ℝ) (h : |s| ≤ 2 ^ 1022) :
    ∃ y : F64, y.isFinite = true ∧ |y.rv - s| ≤ 2 * U * |s| + 1 / 2 ^ 1000 ∧ (s = 0 → y.rv = 0) := by
  have hU := U_pos
  by_cases h0 : 1 / 2 ^ 1000 ≤ |s|
  · obtain ⟨y, h1, h2⟩ := exists_rel s h0 h
    refine ⟨y, h1, ?_, fun e => ?_⟩
    · change |y.rv - s| ≤ _ at h2
      have : (1 : ℝ) / 2 ^ 52 * |s| = 2 * U * |s| := by unfold U; norm_num
      have : (0 : ℝ) ≤ 1 / 2 ^ 1000 := by positivity
      linarith
    · rw [e, abs_zero] at h0
      exact absurd h0 (not_le.2 (by positivity))
  · refine ⟨zero false, zero_isFinite _, ?_, fun _ => by simp [rv, val_zero]⟩
    have e : (zero false).rv = 0 := by simp [rv, val_zero]
    rw [e, zero_sub, abs_neg]
    push Not at h0
    have : 0 ≤ 2 * U * |s| := by positivity
    linarith

open Classical in
/-- rounding of a real number -/
noncomputable def nearest (s : ℝ) : F64 := if h : |s| ≤ 2 ^ 1022 then (exists_near s h).choose else zero false

theorem nearest_spec {s : ℝ} (h : |s| ≤ 2 ^ 1022) :
    (nearest s).isFinite = true ∧ |(nearest s).rv - s| ≤ 2 * U * |s| + 1 / 2 ^ 1000 ∧ (s = 0 → (nearest s).rv = 0) := by
  unfold nearest
  rw [dif_pos h]
  exact (exists_near s h).choose_spec

theorem frob_same {n : ℕ} {A B : Fin n → Fin n → ℝ} {lam mu : Fin n → ℝ} {Q : Fin n → Fin n → ℝ} (hA : IsEigenDecomposition A ⟨lam, Q⟩)
    (hB : IsEigenDecomposition B ⟨mu, Q⟩) : ∑ i, ∑ j, (A i j - B i j) ^ 2 = ∑ j, (lam j - mu j) ^ 2 := by
  have h := Perturb.frobenius hA hB (Matrix.of A - Matrix.of B)
  simp only [Perturb.inner_diff hA hB] at h
  have e : Perturb.inner ⟨lam, Q⟩ ⟨mu, Q⟩ = (1 : Matrix (Fin n) (Fin n) ℝ) := Perturb.tr_mul hA
  rw [e] at h
  simp only [Matrix.one_apply, mul_ite, mul_one, mul_zero, ite_pow, ne_eq, OfNat.ofNat_ne_zero, not_false_eq_true, zero_pow, Finset.sum_ite_eq,
    Finset.mem_univ, if_true] at h
  exact h.symm

theorem eig_of_vecs {n : ℕ} {A : Fin n → Fin n → ℝ} {E : SymEigen ℝ n} (hA : IsEigenDecomposition A E) (mu : Fin n → ℝ) :
    IsEigenDecomposition (fun i j => ∑ k, mu k * (E.eigenvectors i k * E.eigenvectors j k)) ⟨mu, E.eigenvectors⟩ := by
  refine ⟨fun i j => ?_, hA.orthonormal⟩
  simp only
  calc ∑ k, (∑ l, mu l * (E.eigenvectors i l * E.eigenvectors k l)) * E.eigenvectors k j
      = ∑ l, mu l * E.eigenvectors i l * ∑ k, E.eigenvectors k l * E.eigenvectors k j := by
        simp only [Finset.sum_mul, Finset.mul_sum]
        rw [Finset.sum_comm]
        exact Finset.sum_congr rfl fun l _ => Finset.sum_congr rfl fun k _ => by ring
    _ = _ := by
        simp only [hA.orthonormal]
        simp

theorem sq_err {e s t : ℝ} (h : |e| ≤ 2 * U * |s| + t) (ht : 0 ≤ t) : e ^ 2 ≤ 8 * U ^ 2 * s ^ 2 + 2 * t ^ 2 := by
  have hU := U_pos
  have h1 : e ^ 2 ≤ (2 * U * |s| + t) ^ 2 := by
    rw [← sq_abs]; exact pow_le_pow_left₀ (abs_nonneg _) h 2
  have h2 := sq_nonneg (2 * U * |s| - t)
  have h3 := sq_abs s
  calc e ^ 2 ≤ (2 * U * |s| + t) ^ 2 := h1
    _ ≤ (2 * U * |s| + t) ^ 2 + (2 * U * |s| - t) ^ 2 := by linarith
    _ = 8 * U ^ 2 * |s| ^ 2 + 2 * t ^ 2 := by ring
    _ = _ := by rw [h3]

/-- the solver that rounds the exact decomposition -/
noncomputable def roundedEig (n : ℕ) (M : Fin n → Fin n → F64) : SymEigen F64 n :=
  ⟨fun j => nearest ((spectralEig n fun i j => (M i j).rv).eigenvalues j), fun i j => nearest ((spectralEig n fun i j => (M i j).rv).eigenvectors i j)⟩

theorem stableSolver_exists [Libm] {n : ℕ} (hn : n ≤ 10 ^ 12) : StableSolver (Externals.f64 roundedEig) n (3 * n * U) := by
  intro M hM hmod
  have hU := U_pos
  have hn' : (n : ℝ) ≤ 10 ^ 12 := by exact_mod_cast hn
  have hE : IsEigenDecomposition (fun i j => (M i j).rv) (spectralEig n fun i j => (M i j).rv) :=
    exactSolver_exists n _ fun i j => by simp only [hM i j]
  set E := spectralEig n fun i j => (M i j).rv with hEd
  have e1 : ∀ j, ((Externals.f64 roundedEig).eig n M).eigenvalues j = nearest (E.eigenvalues j) := fun j => rfl
  have e2 : ∀ i j, ((Externals.f64 roundedEig).eig n M).eigenvectors i j = nearest (E.eigenvectors i j) := fun i j => rfl
  simp only [e1, e2]
  clear e1 e2
  clear_value E
  -- sizes
  have hz : IsEigenDecomposition (fun _ _ => (0 : ℝ)) ⟨fun _ : Fin n => 0, E.eigenvectors⟩ := ⟨fun i j => by simp, hE.orthonormal⟩
  have hF : ∑ i, ∑ j, (M i j).rv ^ 2 = ∑ j, E.eigenvalues j ^ 2 := by
    have := frob_same (lam := E.eigenvalues) (Q := E.eigenvectors) hE hz
    simpa using this
  have hentry : ∀ i j, (M i j).rv ^ 2 ≤ (2 ^ 400) ^ 2 := fun i j => by
    rw [← sq_abs]
    refine pow_le_pow_left₀ (abs_nonneg _) ?_ 2
    exact (hmod.1 i j).2
  have hFb : ∑ i, ∑ j, (M i j).rv ^ 2 ≤ (2 ^ 450) ^ 2 := by
    calc ∑ i, ∑ j, (M i j).rv ^ 2 ≤ ∑ _i : Fin n, ∑ _j : Fin n, ((2 : ℝ) ^ 400) ^ 2 := Finset.sum_le_sum fun i _ => Finset.sum_le_sum fun j _ => hentry i j
      _ = (n * 2 ^ 400) ^ 2 := by simp only [Finset.sum_const, Finset.card_univ, Fintype.card_fin, nsmul_eq_mul]; ring
      _ ≤ (10 ^ 12 * 2 ^ 400) ^ 2 := by gcongr
      _ ≤ _ := by norm_num
  have hlam : ∀ j, |E.eigenvalues j| ≤ 2 ^ 1022 := fun j => by
    have h1 : E.eigenvalues j ^ 2 ≤ (2 ^ 450) ^ 2 :=
      (Finset.single_le_sum (f := fun j => E.eigenvalues j ^ 2) (fun i _ => sq_nonneg _) (Finset.mem_univ j)).trans (hF ▸ hFb)
    exact (abs_le_of_sq_le_sq h1 (by positivity)).trans (by norm_num)
  have hcol : ∀ j, ∑ i, E.eigenvectors i j ^ 2 = 1 := fun j => by
    have := hE.orthonormal j j
    rw [if_pos rfl] at this
    rw [← this]
    exact Finset.sum_congr rfl fun i _ => sq _
  have hvec : ∀ i j, |E.eigenvectors i j| ≤ 2 ^ 1022 := fun i j => by
    have h1 : E.eigenvectors i j ^ 2 ≤ 1 ^ 2 :=
      (Finset.single_le_sum (f := fun i => E.eigenvectors i j ^ 2) (fun i _ => sq_nonneg _) (Finset.mem_univ i)).trans (by rw [hcol]; norm_num)
    exact (abs_le_of_sq_le_sq h1 (by norm_num)).trans (by norm_num)
  obtain ⟨t, ht⟩ : ∃ t : ℝ, t = 1 / 2 ^ 1000 := ⟨_, rfl⟩
  have ht0 : 0 ≤ t := by rw [ht]; positivity
  refine ⟨fun j => (nearest_spec (hlam j)).1, fun i j => (nearest_spec (hvec i j)).1, _, E.eigenvectors,
    eig_of_vecs hE fun j => (nearest (E.eigenvalues j)).rv, ?_, ?_⟩
  · change ∑ i, ∑ j, (_ - (M i j).rv) ^ 2 ≤ _ * ∑ i, ∑ j, (M i j).rv ^ 2
    rw [frob_same (mu := E.eigenvalues) (Q := E.eigenvectors) (eig_of_vecs hE fun j => (nearest (E.eigenvalues j)).rv) hE]
    by_cases h0 : ∀ i j, (M i j).rv = 0
    · have hs : ∑ i, ∑ j, (M i j).rv ^ 2 = 0 := by simp [h0]
      have hl : ∀ j, E.eigenvalues j = 0 := fun j => by
        rw [hF, Finset.sum_eq_zero_iff_of_nonneg fun i _ => sq_nonneg _] at hs
        exact pow_eq_zero_iff (two_ne_zero) |>.1 (hs j (Finset.mem_univ _))
      rw [hs, mul_zero]
      refine le_of_eq (Finset.sum_eq_zero fun j _ => ?_)
      rw [(nearest_spec (hlam j)).2.2 (hl j), hl j]; norm_num
    · push Not at h0
      obtain ⟨i0, j0, hlow⟩ : ∃ i j, 1 / 2 ^ 400 ≤ |(M i j).rv| := by
        obtain ⟨i, j, hne⟩ := h0
        exact hmod.2.resolve_left fun h => hne (h i j)
      have hn1 : (1 : ℝ) ≤ n := by exact_mod_cast (Nat.pos_of_ne_zero (by rintro rfl; exact i0.elim0) : 0 < n)
      have hlow : (1 / 2 ^ 400) ^ 2 ≤ ∑ i, ∑ j, (M i j).rv ^ 2 := by
        refine le_trans ?_ (Finset.single_le_sum (f := fun i => ∑ j, (M i j).rv ^ 2) (fun i _ => Finset.sum_nonneg fun j _ => sq_nonneg _) (Finset.mem_univ i0))
        refine le_trans ?_ (Finset.single_le_sum (f := fun j => (M i0 j).rv ^ 2) (fun i _ => sq_nonneg _) (Finset.mem_univ j0))
        rw [← sq_abs (M i0 j0).rv]
        exact pow_le_pow_left₀ (by positivity) hlow 2
      calc ∑ j, ((nearest (E.eigenvalues j)).rv - E.eigenvalues j) ^ 2 ≤ ∑ j, (8 * U ^ 2 * E.eigenvalues j ^ 2 + 2 * t ^ 2) :=
            Finset.sum_le_sum fun j _ => sq_err (ht ▸ (nearest_spec (hlam j)).2.1) ht0
        _ = 8 * U ^ 2 * (∑ i, ∑ j, (M i j).rv ^ 2) + n * (2 * t ^ 2) := by
            rw [Finset.sum_add_distrib, ← Finset.mul_sum, hF, Finset.sum_const, Finset.card_univ, Fintype.card_fin, nsmul_eq_mul]
        _ ≤ 8 * U ^ 2 * (∑ i, ∑ j, (M i j).rv ^ 2) + U ^ 2 * ∑ i, ∑ j, (M i j).rv ^ 2 := by
            refine add_le_add le_rfl ?_
            calc (n : ℝ) * (2 * t ^ 2) ≤ 10 ^ 12 * (2 * t ^ 2) := mul_le_mul_of_nonneg_right hn' (by positivity)
              _ ≤ U ^ 2 * (1 / 2 ^ 400) ^ 2 := by rw [ht]; unfold U; norm_num
              _ ≤ _ := mul_le_mul_of_nonneg_left hlow (by positivity)
        _ = 1 * (9 * U ^ 2) * ∑ i, ∑ j, (M i j).rv ^ 2 := by ring
        _ ≤ n ^ 2 * (9 * U ^ 2) * ∑ i, ∑ j, (M i j).rv ^ 2 := by
            refine mul_le_mul_of_nonneg_right (mul_le_mul_of_nonneg_right (by nlinarith) (by positivity)) (le_trans (by positivity) hlow)
        _ = _ := by ring
  · change ∑ i, ∑ j, ((nearest (E.eigenvectors i j)).rv - E.eigenvectors i j) ^ 2 ≤ _
    rcases Nat.eq_zero_or_pos n with rfl | hn0
    · simp
    have hn1 : (1 : ℝ) ≤ n := by exact_mod_cast hn0
    calc ∑ i, ∑ j, ((nearest (E.eigenvectors i j)).rv - E.eigenvectors i j) ^ 2 ≤ ∑ i, ∑ j, (8 * U ^ 2 * E.eigenvectors i j ^ 2 + 2 * t ^ 2) :=
          Finset.sum_le_sum fun i _ => Finset.sum_le_sum fun j _ => sq_err (ht ▸ (nearest_spec (hvec i j)).2.1) ht0
      _ = 8 * U ^ 2 * n + n * (n * (2 * t ^ 2)) := by
          simp only [Finset.sum_add_distrib, ← Finset.mul_sum]
          rw [Finset.sum_comm, Finset.sum_congr rfl fun j _ => hcol j]
          simp only [Finset.sum_const, Finset.card_univ, Fintype.card_fin, nsmul_eq_mul, mul_one]
          ring
      _ ≤ n ^ 2 * (9 * U ^ 2) := by
          have h1 : 8 * U ^ 2 * n ≤ 8 * U ^ 2 * n ^ 2 := mul_le_mul_of_nonneg_left (by nlinarith) (by positivity)
          have h2 : 2 * t ^ 2 ≤ U ^ 2 := by rw [ht]; unfold U; norm_num
          have h3 : (n : ℝ) ^ 2 * (2 * t ^ 2) ≤ n ^ 2 * U ^ 2 := mul_le_mul_of_nonneg_left h2 (by positivity)
          linarith
      _ = _ := by ring

end GaussQuad.F64
