import Verif.Spec.Eigen
import Verif.Spec.Gauss
import Verif.Proofs.Structure
import Verif.Proofs.RealRuleLemmas
import Verif.Proofs.ExternalsExist
import Mathlib.Analysis.Matrix.Spectrum
import Mathlib.Algebra.Polynomial.Div
import Mathlib.Algebra.Polynomial.Sequence
import Mathlib.LinearAlgebra.Matrix.NonsingularInverse

/-!
The Golub-Welsch algorithm reproduces every linear functional that is orthogonal with respect to the three-term recurrence of
its matrix, up to degree `2n-1`.
-/

namespace GaussQuad
open Polynomial Spec FloatOps

/-! ### an exact solver exists -/

theorem exists_eigen {n : ℕ} (M : Fin n → Fin n → ℝ) (hM : ∀ i j, M i j = M j i) :
    ∃ E : SymEigen ℝ n, IsEigenDecomposition M E := by
  have hA : (Matrix.of M).IsHermitian := by
    ext i j; simp [hM j i]
  refine ⟨⟨hA.eigenvalues, fun i j => hA.eigenvectorUnitary i j⟩, ?_, ?_⟩
  · intro i j
    have h := hA.mulVec_eigenvectorBasis j
    have h2 := congrFun h i
    simpa [Matrix.mulVec, dotProduct] using h2
  · intro j j'
    have h := Matrix.UnitaryGroup.star_mul_self hA.eigenvectorUnitary
    have h2 := congrFun (congrFun h j) j'
    simpa [Matrix.mul_apply, Matrix.one_apply] using h2

open Classical in
/-- an eigen-solver given by the spectral theorem -/
noncomputable def spectralEig (n : ℕ) (M : Fin n → Fin n → ℝ) : SymEigen ℝ n :=
  if hM : ∀ i j, M i j = M j i then (exists_eigen M hM).choose else ⟨fun _ => 0, fun _ _ => 0⟩

/-- the contract of the exact solver is satisfiable -/
theorem exactSolver_exists : ExactSolver (Externals.real spectralEig) := by
  intro n M hM
  show IsEigenDecomposition M (spectralEig n M)
  unfold spectralEig
  rw [dif_pos hM]
  exact (exists_eigen M hM).choose_spec

/-! ### monic orthogonal polynomials of the recurrence -/

/-- `π_0 = 1`, `π_1 = x - a_0`, `π_{k+2} = (x - a_{k+1}) π_{k+1} - b_k² π_k` -/
noncomputable def monicSeq (a b : ℕ → ℝ) : ℕ → ℝ[X]
  | 0 => 1
  | 1 => X - C (a 0)
  | k + 2 => (X - C (a (k + 1))) * monicSeq a b (k + 1) - C (b k ^ 2) * monicSeq a b k

theorem monicSeq_degree (a b : ℕ → ℝ) : ∀ k, (monicSeq a b k).Monic ∧ (monicSeq a b k).natDegree = k
  | 0 => by simp [monicSeq]
  | 1 => by simp [monicSeq, monic_X_sub_C]
  | k + 2 => by
    obtain ⟨h1, h2⟩ := monicSeq_degree a b (k + 1)
    obtain ⟨h3, h4⟩ := monicSeq_degree a b k
    have hm : ((X - C (a (k + 1))) * monicSeq a b (k + 1)).Monic := (monic_X_sub_C _).mul h1
    have hd : ((X - C (a (k + 1))) * monicSeq a b (k + 1)).natDegree = k + 2 := by
      rw [(monic_X_sub_C _).natDegree_mul h1, h2, natDegree_X_sub_C]; ring
    have hlt : (C (b k ^ 2) * monicSeq a b k).degree < ((X - C (a (k + 1))) * monicSeq a b (k + 1)).degree := by
      rw [degree_eq_natDegree hm.ne_zero, hd]
      refine lt_of_le_of_lt degree_le_natDegree ?_
      have : (C (b k ^ 2) * monicSeq a b k).natDegree ≤ k := (natDegree_C_mul_le _ _).trans h4.le
      exact_mod_cast (by omega : (C (b k ^ 2) * monicSeq a b k).natDegree < k + 2)
    constructor
    · exact hm.sub_of_left hlt
    · rw [monicSeq, natDegree_sub_eq_left_of_natDegree_lt, hd]
      rw [hd]
      have : (C (b k ^ 2) * monicSeq a b k).natDegree ≤ k := (natDegree_C_mul_le _ _).trans h4.le
      omega

theorem monicSeq_succ (a b : ℕ → ℝ) (k : ℕ) :
    X * monicSeq a b (k + 1) = monicSeq a b (k + 2) + C (a (k + 1)) * monicSeq a b (k + 1) + C (b k ^ 2) * monicSeq a b k := by
  rw [monicSeq]; ring

/-- the sequence as a Mathlib degree sequence -/
noncomputable def monicSequence (a b : ℕ → ℝ) : Polynomial.Sequence ℝ where
  elems' := monicSeq a b
  degree_eq' := fun k => by
    rw [degree_eq_natDegree (monicSeq_degree a b k).1.ne_zero, (monicSeq_degree a b k).2]

/-- two functionals that agree on `π_0, …, π_{n-1}` agree on all polynomials of degree `< n` -/
theorem functional_ext {a b : ℕ → ℝ} {n : ℕ} {Λ E : ℝ[X] →ₗ[ℝ] ℝ} (h : ∀ m < n, Λ (monicSeq a b m) = E (monicSeq a b m))
    {p : ℝ[X]} (hp : p.degree < n) : Λ p = E p := by
  have hmem : p ∈ degreeLT ℝ n := by rwa [mem_degreeLT]
  rw [← Sequence.span_degreeLT (monicSequence a b) (by
    intro i _
    have : (monicSequence a b : ℕ → ℝ[X]) i = monicSeq a b i := rfl
    rw [this, (monicSeq_degree a b i).1.leadingCoeff]
    exact (isUnit_one : IsUnit (1 : ℝ))), show Set.Iio n = Finset.range n by simp,
    Submodule.mem_span_image_finset_iff_exists_fun'] at hmem
  obtain ⟨c, rfl⟩ := hmem
  simp only [map_sum, map_smul]
  apply Finset.sum_congr rfl
  intro i hi
  congr 1
  exact h i (Finset.mem_range.1 hi)

/-- orthogonality against lower powers -/
theorem functional_orthogonal {a b : ℕ → ℝ} {Λ : ℝ[X] →ₗ[ℝ] ℝ} (h : ∀ m, 1 ≤ m → Λ (monicSeq a b m) = 0) :
    ∀ k m, k < m → Λ (X ^ k * monicSeq a b m) = 0 := by
  intro k
  induction k with
  | zero => intro m hm; rw [pow_zero, one_mul]; exact h m hm
  | succ k ih =>
    intro m hm
    obtain ⟨m, rfl⟩ : ∃ m', m = m' + 1 := ⟨m - 1, by omega⟩
    have e : X ^ (k + 1) * monicSeq a b (m + 1) = X ^ k * monicSeq a b (m + 2) + a (m + 1) • (X ^ k * monicSeq a b (m + 1)) +
        (b m ^ 2) • (X ^ k * monicSeq a b m) := by
      rw [pow_succ, mul_assoc, monicSeq_succ, smul_eq_C_mul, smul_eq_C_mul]; ring
    rw [e, map_add, map_add, map_smul, map_smul, ih _ (by omega), ih _ (by omega), ih _ (by omega)]
    simp

theorem functional_orthogonal' {a b : ℕ → ℝ} {Λ : ℝ[X] →ₗ[ℝ] ℝ} (h : ∀ m, 1 ≤ m → Λ (monicSeq a b m) = 0) {n : ℕ} {q : ℝ[X]}
    (hq : q.degree < n) : Λ (q * monicSeq a b n) = 0 := by
  rw [as_sum_range_C_mul_X_pow q, Finset.sum_mul, map_sum]
  apply Finset.sum_eq_zero
  intro i hi
  by_cases hc : q.coeff i = 0
  · simp [hc]
  · have : i < n := by
      by_contra hge
      apply hc
      apply coeff_eq_zero_of_degree_lt
      exact lt_of_lt_of_le hq (by exact_mod_cast not_lt.1 hge)
    rw [mul_assoc, ← smul_eq_C_mul, map_smul, functional_orthogonal h i n this, smul_zero]

/-! ### the spectral functional -/

/-- entries of the companion matrix -/
noncomputable def jacobiMatrix (n : ℕ) (a b : ℕ → ℝ) (i j : Fin n) : ℝ :=
  if (i : ℕ) = j then a i else if (j : ℕ) = i + 1 then b i else if (i : ℕ) = j + 1 then b j else 0

theorem jacobiMatrix_symm (n : ℕ) (a b : ℕ → ℝ) (i j : Fin n) : jacobiMatrix n a b i j = jacobiMatrix n a b j i := by
  unfold jacobiMatrix
  rcases lt_trichotomy (i : ℕ) j with h | h | h
  · rw [if_neg (by omega), if_neg (by omega : ¬ (j : ℕ) = i), if_neg (by omega : ¬ (i : ℕ) = j + 1)]
    simp only [if_neg (by omega : ¬ (i : ℕ) = j + 1)]
  · rw [if_pos h, if_pos h.symm, h]
  · rw [if_neg (by omega), if_neg (by omega : ¬ (j : ℕ) = i), if_neg (by omega : ¬ (j : ℕ) = i + 1)]
    simp only [if_neg (by omega : ¬ (j : ℕ) = i + 1)]

section Spectral
variable {n : ℕ} {a b : ℕ → ℝ} {E : SymEigen ℝ n} (hE : IsEigenDecomposition (jacobiMatrix n a b) E) (h0 : 0 < n)
include hE

theorem rows_orthonormal (i i' : Fin n) : ∑ j, E.eigenvectors i j * E.eigenvectors i' j = if i = i' then 1 else 0 := by
  have h1 : (Matrix.of E.eigenvectors).transpose * Matrix.of E.eigenvectors = 1 := by
    ext j j'
    rw [Matrix.mul_apply, Matrix.one_apply, ← hE.orthonormal j j']
    rfl
  have h2 := mul_eq_one_comm.1 h1
  have h3 := congrFun (congrFun h2 i) i'
  rw [Matrix.mul_apply, Matrix.one_apply] at h3
  exact h3

omit hE in
/-- `(p(M) e_0)_i` written with the decomposition -/
noncomputable def krylov (E : SymEigen ℝ n) (h0 : 0 < n) (p : ℝ[X]) (i : Fin n) : ℝ :=
  ∑ j, E.eigenvectors i j * p.eval (E.eigenvalues j) * E.eigenvectors ⟨0, h0⟩ j

omit hE in
theorem krylov_sub (p q : ℝ[X]) (i : Fin n) : krylov E h0 (p - q) i = krylov E h0 p i - krylov E h0 q i := by
  unfold krylov
  rw [← Finset.sum_sub_distrib]
  apply Finset.sum_congr rfl
  intro j _
  rw [eval_sub]; ring

omit hE in
theorem krylov_C_mul (c : ℝ) (p : ℝ[X]) (i : Fin n) : krylov E h0 (C c * p) i = c * krylov E h0 p i := by
  unfold krylov
  rw [Finset.mul_sum]
  apply Finset.sum_congr rfl
  intro j _
  rw [eval_mul, eval_C]; ring

theorem krylov_X_mul (p : ℝ[X]) (i : Fin n) :
    krylov E h0 (X * p) i = ∑ k, jacobiMatrix n a b i k * krylov E h0 p k := by
  unfold krylov
  simp_rw [Finset.mul_sum]
  rw [Finset.sum_comm]
  apply Finset.sum_congr rfl
  intro j _
  have h := hE.eigen i j
  rw [eval_mul, eval_X]
  calc E.eigenvectors i j * (E.eigenvalues j * eval (E.eigenvalues j) p) * E.eigenvectors ⟨0, h0⟩ j
      = (E.eigenvalues j * E.eigenvectors i j) * (eval (E.eigenvalues j) p * E.eigenvectors ⟨0, h0⟩ j) := by ring
    _ = _ := by
      rw [← h, Finset.sum_mul]
      apply Finset.sum_congr rfl
      intro k _
      ring

theorem krylov_one (i : Fin n) : krylov E h0 1 i = if (i : ℕ) = 0 then 1 else 0 := by
  unfold krylov
  simp only [eval_one, mul_one]
  rw [rows_orthonormal hE]
  congr 1
  rw [Fin.ext_iff]

omit hE in
/-- column `m` of the companion matrix -/
theorem jacobiMatrix_col (m : ℕ) (c : ℝ) (u : Fin n → ℝ) (hu : ∀ k : Fin n, u k = if (k : ℕ) = m then c else 0) (hm : m < n)
    (i : Fin n) : ∑ k, jacobiMatrix n a b i k * u k = c * (if (i : ℕ) = m then a m else if (i : ℕ) = m + 1 then b m else
      if m = i + 1 then b i else 0) := by
  rw [Finset.sum_eq_single ⟨m, hm⟩]
  · rw [hu, if_pos rfl, mul_comm]
    congr 1
    unfold jacobiMatrix
    simp only
    rcases lt_trichotomy (i : ℕ) m with h | h | h
    · rw [if_neg (by omega), if_neg (by omega : ¬ (i : ℕ) = m), if_neg (by omega : ¬ (i : ℕ) = m + 1)]
      simp only [if_neg (by omega : ¬ (i : ℕ) = m + 1)]
    · rw [if_pos h, if_pos h, h]
    · rw [if_neg (by omega), if_neg (by omega : ¬ (i : ℕ) = m), if_neg (by omega : ¬ m = i + 1)]
      simp only [if_neg (by omega : ¬ m = (i : ℕ) + 1)]
  · intro k _ hk
    rw [hu, if_neg, mul_zero]
    intro h; apply hk; ext; exact h
  · intro h; exact absurd (Finset.mem_univ _) h

/-- `π_m(M) e_0` is a multiple of `e_m`, and `π_n(M) e_0 = 0` -/
theorem krylov_monicSeq : ∀ m : ℕ, m ≤ n → ∀ i : Fin n,
    krylov E h0 (monicSeq a b m) i = if (i : ℕ) = m then ∏ k ∈ Finset.range m, b k else 0
  | 0, _, i => by rw [monicSeq, krylov_one hE]; simp
  | 1, hm, i => by
    have h := krylov_monicSeq 0 (Nat.zero_le _)
    rw [monicSeq, krylov_sub, ← mul_one X, krylov_X_mul hE, ← mul_one (C (a 0)), krylov_C_mul]
    rw [show (1 : ℝ[X]) = monicSeq a b 0 by rw [monicSeq]]
    rw [jacobiMatrix_col 0 _ _ h (by omega), h i]
    simp only [Finset.prod_range_zero, Finset.prod_range_one]
    rcases Nat.eq_zero_or_pos (i : ℕ) with h1 | h1
    · simp [h1]
    · by_cases h2 : (i : ℕ) = 1
      · simp [h2]
      · rw [if_neg (by omega), if_neg (by omega), if_neg (by omega), if_neg (by omega)]; simp [h2]
  | m + 2, hm, i => by
    have h1 := krylov_monicSeq (m + 1) (by omega)
    have h2 := krylov_monicSeq m (by omega)
    rw [monicSeq, krylov_sub, sub_mul, krylov_sub, krylov_X_mul hE, krylov_C_mul, krylov_C_mul,
      jacobiMatrix_col (m + 1) _ _ h1 (by omega), h1 i, h2 i]
    by_cases e1 : (i : ℕ) = m + 1
    · rw [if_pos e1, if_neg (by omega : ¬ (i : ℕ) = m), if_pos e1, if_neg (by omega)]; ring
    · by_cases e2 : (i : ℕ) = m + 2
      · rw [if_neg e1, if_pos e2, if_neg (by omega), if_neg (by omega), if_pos e2, Finset.prod_range_succ _ (m + 1)]; ring
      · by_cases e3 : (i : ℕ) = m
        · rw [if_neg e1, if_neg e2, if_pos (by omega), if_neg (by omega), if_pos e3, if_neg (by omega), Finset.prod_range_succ, e3]
          ring
        · rw [if_neg e1, if_neg e2, if_neg (by omega), if_neg (by omega), if_neg e3, if_neg (by omega)]; ring

omit hE in
/-- the quadrature functional `Σ_j V_{0j}² p(λ_j)` -/
noncomputable def spectralFunctional (E : SymEigen ℝ n) (h0 : 0 < n) : ℝ[X] →ₗ[ℝ] ℝ where
  toFun := fun p => krylov E h0 p ⟨0, h0⟩
  map_add' := fun p q => by
    unfold krylov
    rw [← Finset.sum_add_distrib]
    apply Finset.sum_congr rfl
    intro j _
    rw [eval_add]; ring
  map_smul' := fun c p => by
    simp only [RingHom.id_apply, smul_eq_mul]
    rw [smul_eq_C_mul, krylov_C_mul]

omit hE in
theorem spectralFunctional_apply (p : ℝ[X]) : spectralFunctional E h0 p =
    ∑ j, E.eigenvectors ⟨0, h0⟩ j * E.eigenvectors ⟨0, h0⟩ j * p.eval (E.eigenvalues j) := by
  show krylov E h0 p ⟨0, h0⟩ = _
  unfold krylov
  apply Finset.sum_congr rfl
  intro j _
  ring

/-- every node is a root of `π_n` unless its weight vanishes -/
theorem monicSeq_root (j : Fin n) : (monicSeq a b n).eval (E.eigenvalues j) * E.eigenvectors ⟨0, h0⟩ j = 0 := by
  have h := krylov_monicSeq hE h0 n le_rfl
  have h1 : ∑ i, E.eigenvectors i j * krylov E h0 (monicSeq a b n) i = 0 := by
    apply Finset.sum_eq_zero
    intro i _
    rw [h i, if_neg (by omega), mul_zero]
  unfold krylov at h1
  simp_rw [Finset.mul_sum] at h1
  rw [Finset.sum_comm] at h1
  rw [← h1]
  have h2 : ∀ j' : Fin n, ∑ i, E.eigenvectors i j * (E.eigenvectors i j' * eval (E.eigenvalues j') (monicSeq a b n) *
      E.eigenvectors ⟨0, h0⟩ j') = (if j = j' then 1 else 0) * (eval (E.eigenvalues j') (monicSeq a b n) *
      E.eigenvectors ⟨0, h0⟩ j') := by
    intro j'
    rw [← hE.orthonormal j j', Finset.sum_mul]
    apply Finset.sum_congr rfl
    intro i _
    ring
  simp_rw [h2]
  simp

/-- the Golub-Welsch functional agrees with every orthogonal functional up to degree `2n-1` -/
theorem spectral_exact {Λ : ℝ[X] →ₗ[ℝ] ℝ} (h : ∀ m, 1 ≤ m → Λ (monicSeq a b m) = 0) {p : ℝ[X]} (hp : p.natDegree ≤ 2 * n - 1) :
    Λ p = Λ 1 * spectralFunctional E h0 p := by
  set P := monicSeq a b n with hP
  obtain ⟨hmon, hdeg⟩ := monicSeq_degree a b n
  have hdiv : p = p %ₘ P + P * (p /ₘ P) := (modByMonic_add_div p P).symm
  have hq : (p /ₘ P).degree < n := by
    by_cases hz : p /ₘ P = 0
    · rw [hz, degree_zero]; exact WithBot.bot_lt_coe n
    · rw [degree_eq_natDegree hz]
      have : (p /ₘ P).natDegree = p.natDegree - P.natDegree := natDegree_divByMonic p hmon
      rw [hP, hdeg] at this
      have h2 : (p /ₘ P).natDegree < n := by rw [hP, this]; omega
      exact_mod_cast h2
  have hr : (p %ₘ P).degree < n := by
    have := degree_modByMonic_lt p hmon
    rwa [degree_eq_natDegree hmon.ne_zero, hdeg] at this
  have hΛ : Λ p = Λ (p %ₘ P) := by
    conv_lhs => rw [hdiv]
    rw [map_add, mul_comm, functional_orthogonal' h hq, add_zero]
  have hS : spectralFunctional E h0 p = spectralFunctional E h0 (p %ₘ P) := by
    conv_lhs => rw [hdiv]
    rw [map_add]
    have : spectralFunctional E h0 (P * (p /ₘ P)) = 0 := by
      rw [spectralFunctional_apply]
      apply Finset.sum_eq_zero
      intro j _
      have := monicSeq_root hE h0 j
      rw [eval_mul, hP]
      calc _ = E.eigenvectors ⟨0, h0⟩ j * eval (E.eigenvalues j) (p /ₘ monicSeq a b n) *
            (eval (E.eigenvalues j) (monicSeq a b n) * E.eigenvectors ⟨0, h0⟩ j) := by ring
        _ = 0 := by rw [this, mul_zero]
    rw [this, add_zero]
  rw [hΛ, hS]
  have := functional_ext (a := a) (b := b) (n := n) (Λ := Λ) (E := Λ 1 • spectralFunctional E h0) ?_ hr
  · rw [this]; rfl
  · intro m hm
    show _ = Λ 1 * krylov E h0 (monicSeq a b m) ⟨0, h0⟩
    rw [krylov_monicSeq hE h0 m hm.le]
    rcases Nat.eq_zero_or_pos m with rfl | hm0
    · simp [monicSeq]
    · rw [h m hm0, if_neg (by simp; omega), mul_zero]

end Spectral

/-- the Golub-Welsch pairs integrate every functional orthogonal with respect to the recurrence exactly, up to the factor
`scale / Λ(1)` -/
theorem golubWelsch_exact {ext : Externals ℝ} (hext : ExactSolver ext) {n : ℕ} (hn : 0 < n) (a b : ℕ → ℝ) (scale : ℝ)
    {Λ : ℝ[X] →ₗ[ℝ] ℝ} (h : ∀ m, 1 ≤ m → Λ (monicSeq a b m) = 0) (h1 : Λ 1 ≠ 0) :
    ∃ L, golubWelsch ext n a b scale = some L ∧ L.length = n ∧ L.Pairwise (fun p q => p.1 ≤ q.1) ∧
      ∀ p : ℝ[X], p.natDegree ≤ 2 * n - 1 → quad L (fun x => p.eval x) = scale / Λ 1 * Λ p := by
  obtain ⟨M, hM, hL⟩ := golubWelsch_eq ext hn a b scale
  refine ⟨_, hL, by rw [(ext.sort_perm _).length_eq, length_eigenPairs],
    (ext.sort_sorted _).imp (by intro p q h; simpa using h), ?_⟩
  have hM' : M = jacobiMatrix n a b := by
    have := companionMatrix_eq hn a b
    rw [hM] at this
    have := Option.some.inj this
    rw [this]
    funext i j
    unfold jacobiMatrix
    simp only [real_lit_zero]
  have hE : IsEigenDecomposition (jacobiMatrix n a b) (ext.eig n M) := by
    have := hext n M (by rw [hM']; exact jacobiMatrix_symm n a b)
    rwa [← hM']
  intro p hp
  rw [quad_perm (ext.sort_perm _), spectral_exact hE hn h hp, ← mul_assoc, div_mul_cancel₀ _ h1, spectralFunctional_apply,
    Finset.mul_sum]
  unfold quad
  have : eigenPairs hn (ext.eig n M) scale = List.ofFn fun i : Fin n =>
      ((ext.eig n M).eigenvalues i, (ext.eig n M).eigenvectors ⟨0, hn⟩ i *ᶠ (ext.eig n M).eigenvectors ⟨0, hn⟩ i *ᶠ scale) := by
    apply List.ext_getElem
    · simp [eigenPairs]
    · intro i h1 h2; simp [eigenPairs]
  rw [this, List.map_ofFn, List.sum_ofFn]
  apply Finset.sum_congr rfl
  intro j _
  simp only [Function.comp_apply, real_mul]
  ring

end GaussQuad
