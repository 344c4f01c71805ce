import Verif.Spec.Eigen
import Mathlib.LinearAlgebra.Matrix.Trace
import Mathlib.LinearAlgebra.Matrix.NonsingularInverse
import Mathlib.Algebra.Order.BigOperators.Ring.Finset
import Mathlib.Analysis.SpecialFunctions.Pow.Real

/-!
# Perturbation of symmetric eigenproblems in the Frobenius norm

For two symmetric matrices at Frobenius distance `η` the sorted eigenvalues differ by at most `η`, and the quadrature sums `Σ_j V_{rj}² f(λ_j)` of a
function with Lipschitz constant `Λ` differ by at most `Λη`.  Neither needs a gap between the eigenvalues.
-/

namespace GaussQuad
open Spec

/-- what the eigenvalues of two nearby symmetric matrices have in common: `W_ij = ⟨u_i, v_j⟩²` -/
structure Coupling {n : ℕ} (lam mu : Fin n → ℝ) (W : Fin n → Fin n → ℝ) (η : ℝ) : Prop where
  nonneg : ∀ i j, 0 ≤ W i j
  row : ∀ i, ∑ j, W i j = 1
  col : ∀ j, ∑ i, W i j = 1
  dist : ∑ i, ∑ j, (lam i - mu j) ^ 2 * W i j ≤ η ^ 2

namespace Perturb
variable {n : ℕ} {A B : Fin n → Fin n → ℝ} {E F : SymEigen ℝ n}

/-- the eigenvectors as a matrix -/
def vecs (E : SymEigen ℝ n) : Matrix (Fin n) (Fin n) ℝ := Matrix.of E.eigenvectors

theorem tr_mul (h : IsEigenDecomposition A E) : (vecs E).transpose * vecs E = 1 := by
  ext j j'
  rw [Matrix.mul_apply, Matrix.one_apply, ← h.orthonormal j j']
  rfl

theorem mul_tr (h : IsEigenDecomposition A E) : vecs E * (vecs E).transpose = 1 := mul_eq_one_comm.1 (tr_mul h)

theorem mul_vecs (h : IsEigenDecomposition A E) : Matrix.of A * vecs E = vecs E * Matrix.diagonal E.eigenvalues := by
  ext i j
  rw [Matrix.mul_apply, Matrix.mul_diagonal]
  exact (h.eigen i j).trans (mul_comm _ _)

theorem tr_mul_of (h : IsEigenDecomposition A E) : (vecs E).transpose * Matrix.of A = Matrix.diagonal E.eigenvalues * (vecs E).transpose := by
  have h1 : Matrix.of A = vecs E * Matrix.diagonal E.eigenvalues * (vecs E).transpose := by
    rw [← mul_vecs h, Matrix.mul_assoc, mul_tr h, Matrix.mul_one]
  rw [h1, ← Matrix.mul_assoc, ← Matrix.mul_assoc, tr_mul h, Matrix.one_mul]

/-- inner products of the eigenvectors -/
def inner (E F : SymEigen ℝ n) : Matrix (Fin n) (Fin n) ℝ := (vecs E).transpose * vecs F

theorem sq_sum (D : Matrix (Fin n) (Fin n) ℝ) : ∑ i, ∑ j, D i j ^ 2 = (D.transpose * D).trace := by
  simp only [Matrix.trace, Matrix.diag, Matrix.mul_apply, Matrix.transpose_apply, sq]
  exact Finset.sum_comm

/-- orthogonal invariance of the Frobenius norm -/
theorem frobenius (hA : IsEigenDecomposition A E) (hB : IsEigenDecomposition B F) (D : Matrix (Fin n) (Fin n) ℝ) :
    ∑ i, ∑ j, ((vecs E).transpose * D * vecs F) i j ^ 2 = ∑ i, ∑ j, D i j ^ 2 := by
  rw [sq_sum, sq_sum, Matrix.transpose_mul, Matrix.transpose_mul, Matrix.transpose_transpose]
  have : (vecs F).transpose * (D.transpose * vecs E) * ((vecs E).transpose * D * vecs F) =
      (vecs F).transpose * ((D.transpose * D) * vecs F) := by
    calc _ = (vecs F).transpose * (D.transpose * (vecs E * (vecs E).transpose) * D * vecs F) := by simp only [Matrix.mul_assoc]
      _ = _ := by rw [mul_tr hA, Matrix.mul_one]
  rw [this, Matrix.trace_mul_comm, Matrix.mul_assoc, mul_tr hB, Matrix.mul_one]

theorem inner_diff (hA : IsEigenDecomposition A E) (hB : IsEigenDecomposition B F) (i j : Fin n) :
    ((vecs E).transpose * (Matrix.of A - Matrix.of B) * vecs F) i j = (E.eigenvalues i - F.eigenvalues j) * inner E F i j := by
  rw [Matrix.mul_sub, Matrix.sub_mul, tr_mul_of hA, Matrix.mul_assoc (vecs E).transpose, mul_vecs hB, Matrix.mul_assoc, ← Matrix.mul_assoc (vecs E).transpose,
    Matrix.sub_apply, Matrix.diagonal_mul, Matrix.mul_diagonal]
  unfold inner
  ring

theorem coupling (hA : IsEigenDecomposition A E) (hB : IsEigenDecomposition B F) {η : ℝ} (h : ∑ i, ∑ j, (A i j - B i j) ^ 2 ≤ η ^ 2) :
    Coupling E.eigenvalues F.eigenvalues (fun i j => inner E F i j ^ 2) η := by
  have hP : inner E F * (inner E F).transpose = 1 := by
    unfold inner
    rw [Matrix.transpose_mul, Matrix.transpose_transpose, Matrix.mul_assoc, ← Matrix.mul_assoc (vecs F), mul_tr hB, Matrix.one_mul, tr_mul hA]
  have hP' := mul_eq_one_comm.1 hP
  refine ⟨fun i j => sq_nonneg _, fun i => ?_, fun j => ?_, ?_⟩
  · have := congrFun (congrFun hP i) i
    rw [Matrix.mul_apply, Matrix.one_apply_eq] at this
    rw [← this]
    exact Finset.sum_congr rfl fun j _ => sq _
  · have := congrFun (congrFun hP' j) j
    rw [Matrix.mul_apply, Matrix.one_apply_eq] at this
    rw [← this]
    exact Finset.sum_congr rfl fun i _ => sq _
  · refine le_trans (le_of_eq ?_) h
    have := frobenius hA hB (Matrix.of A - Matrix.of B)
    simp only [inner_diff hA hB] at this
    calc _ = ∑ i, ∑ j, ((E.eigenvalues i - F.eigenvalues j) * inner E F i j) ^ 2 := by simp only [mul_pow]
      _ = _ := this

/-- the quadrature sums of a Lipschitz function -/
theorem lipschitz (hA : IsEigenDecomposition A E) (hB : IsEigenDecomposition B F) {η Λ : ℝ} (h : ∑ i, ∑ j, (A i j - B i j) ^ 2 ≤ η ^ 2) (hη : 0 ≤ η)
    (hΛ : 0 ≤ Λ) (f : ℝ → ℝ) (hf : ∀ i j, |f (E.eigenvalues i) - f (F.eigenvalues j)| ≤ Λ * |E.eigenvalues i - F.eigenvalues j|) (r : Fin n) :
    |∑ j, E.eigenvectors r j ^ 2 * f (E.eigenvalues j) - ∑ j, F.eigenvectors r j ^ 2 * f (F.eigenvalues j)| ≤ Λ * η := by
  have C := coupling hA hB h
  have ha : ∀ i, ∑ j, inner E F i j * F.eigenvectors r j = E.eigenvectors r i := by
    intro i
    have : inner E F * (vecs F).transpose = (vecs E).transpose := by
      unfold inner; rw [Matrix.mul_assoc, mul_tr hB, Matrix.mul_one]
    have := congrFun (congrFun this i) r
    rwa [Matrix.mul_apply] at this
  have hb : ∀ j, ∑ i, E.eigenvectors r i * inner E F i j = F.eigenvectors r j := by
    intro j
    have : vecs E * inner E F = vecs F := by
      unfold inner; rw [← Matrix.mul_assoc, mul_tr hA, Matrix.one_mul]
    have := congrFun (congrFun this r) j
    rwa [Matrix.mul_apply] at this
  have e : ∑ j, E.eigenvectors r j ^ 2 * f (E.eigenvalues j) - ∑ j, F.eigenvectors r j ^ 2 * f (F.eigenvalues j) =
      ∑ p : Fin n × Fin n, (E.eigenvectors r p.1 * F.eigenvectors r p.2) *
        (inner E F p.1 p.2 * (f (E.eigenvalues p.1) - f (F.eigenvalues p.2))) := by
    rw [Fintype.sum_prod_type]
    simp only [mul_sub, Finset.sum_sub_distrib]
    congr 1
    · refine Finset.sum_congr rfl fun i _ => ?_
      calc E.eigenvectors r i ^ 2 * f (E.eigenvalues i) = E.eigenvectors r i * f (E.eigenvalues i) * ∑ j, inner E F i j * F.eigenvectors r j := by
            rw [ha i]; ring
        _ = _ := by rw [Finset.mul_sum]; exact Finset.sum_congr rfl fun j _ => by ring
    · rw [Finset.sum_comm]
      refine Finset.sum_congr rfl fun j _ => ?_
      calc F.eigenvectors r j ^ 2 * f (F.eigenvalues j) = F.eigenvectors r j * f (F.eigenvalues j) * ∑ i, E.eigenvectors r i * inner E F i j := by
            rw [hb j]; ring
        _ = _ := by rw [Finset.mul_sum]; exact Finset.sum_congr rfl fun i _ => by ring
  rw [e]
  have cs := Finset.sum_mul_sq_le_sq_mul_sq Finset.univ (fun p : Fin n × Fin n => E.eigenvectors r p.1 * F.eigenvectors r p.2)
    (fun p : Fin n × Fin n => inner E F p.1 p.2 * (f (E.eigenvalues p.1) - f (F.eigenvalues p.2)))
  have h1 : ∑ p : Fin n × Fin n, (E.eigenvectors r p.1 * F.eigenvectors r p.2) ^ 2 = 1 := by
    have r1 : ∀ {A : Fin n → Fin n → ℝ} {E : SymEigen ℝ n}, IsEigenDecomposition A E → ∑ i, E.eigenvectors r i ^ 2 = 1 := by
      intro A E hA
      have := congrFun (congrFun (mul_tr hA) r) r
      rw [Matrix.mul_apply, Matrix.one_apply_eq] at this
      rw [← this]
      exact Finset.sum_congr rfl fun j _ => sq _
    rw [Fintype.sum_prod_type]
    simp only [mul_pow]
    rw [← Finset.sum_mul_sum, r1 hA, r1 hB, one_mul]
  have h2 : ∑ p : Fin n × Fin n, (inner E F p.1 p.2 * (f (E.eigenvalues p.1) - f (F.eigenvalues p.2))) ^ 2 ≤ (Λ * η) ^ 2 := by
    rw [mul_pow, Fintype.sum_prod_type]
    refine le_trans ?_ (mul_le_mul_of_nonneg_left C.dist (sq_nonneg Λ))
    rw [Finset.mul_sum]
    refine Finset.sum_le_sum fun i _ => ?_
    rw [Finset.mul_sum]
    refine Finset.sum_le_sum fun j _ => ?_
    rw [mul_pow, ← sq_abs (f _ - _)]
    have := pow_le_pow_left₀ (abs_nonneg _) (hf i j) 2
    rw [mul_pow Λ, sq_abs (E.eigenvalues i - _)] at this
    calc inner E F i j ^ 2 * |f (E.eigenvalues i) - f (F.eigenvalues j)| ^ 2 ≤ inner E F i j ^ 2 * (Λ ^ 2 * (E.eigenvalues i - F.eigenvalues j) ^ 2) :=
          mul_le_mul_of_nonneg_left this (sq_nonneg _)
      _ = _ := by ring
  rw [h1, one_mul] at cs
  exact abs_le_of_sq_le_sq (cs.trans h2) (by positivity)

end Perturb

namespace Coupling
variable {n : ℕ} {lam mu : Fin n → ℝ} {W : Fin n → Fin n → ℝ} {η : ℝ}

/-- too many eigenvalues cannot be too far away -/
theorem close (h : Coupling lam mu W η) (hη : 0 ≤ η) {S T : Finset (Fin n)} (hc : n < S.card + T.card) : ∃ i ∈ S, ∃ j ∈ T, |lam i - mu j| ≤ η := by
  by_contra hcon
  push Not at hcon
  -- weight of S × T
  have h1 : (1 : ℝ) ≤ ∑ i ∈ S, ∑ j ∈ T, W i j := by
    have e1 : ∑ i ∈ S, ∑ j, W i j = S.card := by
      rw [Finset.sum_congr rfl fun i _ => h.row i]; simp
    have e2 : ∀ i, ∑ j, W i j = ∑ j ∈ T, W i j + ∑ j ∈ Tᶜ, W i j := fun i => (Finset.sum_add_sum_compl T _).symm
    have e3 : ∑ i ∈ S, ∑ j ∈ Tᶜ, W i j ≤ (Tᶜ).card := by
      rw [Finset.sum_comm]
      calc ∑ j ∈ Tᶜ, ∑ i ∈ S, W i j ≤ ∑ j ∈ Tᶜ, ∑ i, W i j :=
            Finset.sum_le_sum fun j _ => Finset.sum_le_sum_of_subset_of_nonneg (Finset.subset_univ _) fun i _ _ => h.nonneg i j
        _ = _ := by rw [Finset.sum_congr rfl fun j _ => h.col j]; simp
    simp only [e2, Finset.sum_add_distrib] at e1
    have e4 : T.card + (Tᶜ).card = n := by rw [Finset.card_add_card_compl, Fintype.card_fin]
    have e5 : (T.card : ℝ) + (Tᶜ).card = n := by exact_mod_cast e4
    have e6 : (n : ℝ) + 1 ≤ S.card + T.card := by exact_mod_cast hc
    linarith
  obtain ⟨i, hi, j, hj, hW⟩ : ∃ i ∈ S, ∃ j ∈ T, 0 < W i j := by
    by_contra hz
    push Not at hz
    have : ∑ i ∈ S, ∑ j ∈ T, W i j ≤ 0 := Finset.sum_nonpos fun i hi => Finset.sum_nonpos fun j hj => hz i hi j hj
    linarith
  have h2 : ∑ i ∈ S, ∑ j ∈ T, (lam i - mu j) ^ 2 * W i j ≤ η ^ 2 := by
    refine le_trans ?_ h.dist
    calc ∑ i ∈ S, ∑ j ∈ T, (lam i - mu j) ^ 2 * W i j ≤ ∑ i ∈ S, ∑ j, (lam i - mu j) ^ 2 * W i j :=
          Finset.sum_le_sum fun i _ => Finset.sum_le_sum_of_subset_of_nonneg (Finset.subset_univ _) fun j _ _ => mul_nonneg (sq_nonneg _) (h.nonneg i j)
      _ ≤ _ := Finset.sum_le_sum_of_subset_of_nonneg (Finset.subset_univ _) fun i _ _ =>
          Finset.sum_nonneg fun j _ => mul_nonneg (sq_nonneg _) (h.nonneg i j)
  have hgt : ∀ i ∈ S, ∀ j ∈ T, η ^ 2 < (lam i - mu j) ^ 2 := fun i hi j hj => by
    rw [← sq_abs (lam i - mu j)]
    exact pow_lt_pow_left₀ (hcon i hi j hj) hη (by norm_num)
  have h3 : ∑ i ∈ S, ∑ j ∈ T, η ^ 2 * W i j < ∑ i ∈ S, ∑ j ∈ T, (lam i - mu j) ^ 2 * W i j := by
    refine Finset.sum_lt_sum (fun i hi => Finset.sum_le_sum fun j hj => mul_le_mul_of_nonneg_right (hgt i hi j hj).le (h.nonneg i j))
      ⟨i, hi, Finset.sum_lt_sum (fun j hj => mul_le_mul_of_nonneg_right (hgt i hi j hj).le (h.nonneg i j)) ⟨j, hj, ?_⟩⟩
    exact mul_lt_mul_of_pos_right (hgt i hi j hj) hW
  have h4 : η ^ 2 ≤ ∑ i ∈ S, ∑ j ∈ T, η ^ 2 * W i j := by
    simp only [← Finset.mul_sum]
    nlinarith [sq_nonneg η]
  linarith

/-- number of entries of a sorted list on either side of one of them -/
theorem card_le {la : List ℝ} (hp : la.Perm (List.ofFn lam)) (hs : la.Pairwise (· ≤ ·)) {i : ℕ} (hi : i < la.length) :
    i + 1 ≤ (Finset.univ.filter fun j => lam j ≤ la[i]).card ∧ la.length - i ≤ (Finset.univ.filter fun j => la[i] ≤ lam j).card := by
  have hcount : ∀ p : ℝ → Bool, (Finset.univ.filter fun j => p (lam j) = true).card = la.countP p := by
    intro p
    rw [hp.countP_eq]
    simp [Finset.card, Finset.filter, Fin.univ_def, List.ofFn_eq_map, List.countP_eq_length_filter, List.filter_map, Function.comp_def]
  have c1 := hcount fun x => decide (x ≤ la[i])
  have c2 := hcount fun x => decide (la[i] ≤ x)
  simp only [decide_eq_true_eq] at c1 c2
  rw [c1, c2]
  constructor
  · calc i + 1 = (la.take (i + 1)).length := by rw [List.length_take]; omega
      _ = (la.take (i + 1)).countP (fun x => decide (x ≤ la[i])) := by
        symm; rw [List.countP_eq_length]
        intro x hx
        obtain ⟨k, hk, rfl⟩ := List.getElem_of_mem hx
        rw [List.length_take] at hk
        rw [List.getElem_take, decide_eq_true_eq]
        rcases Nat.lt_or_ge k i with hlt | hge
        · exact List.pairwise_iff_getElem.1 hs k i (by omega) hi hlt
        · have : k = i := by omega
          subst this; exact le_rfl
      _ ≤ _ := (List.take_sublist _ _).countP_le
  · calc la.length - i = (la.drop i).length := by rw [List.length_drop]
      _ = (la.drop i).countP (fun x => decide (la[i] ≤ x)) := by
        symm; rw [List.countP_eq_length]
        intro x hx
        obtain ⟨k, hk, rfl⟩ := List.getElem_of_mem hx
        rw [List.length_drop] at hk
        rw [List.getElem_drop, decide_eq_true_eq]
        rcases Nat.eq_zero_or_pos k with rfl | hpos
        · exact le_rfl
        · exact List.pairwise_iff_getElem.1 hs i (i + k) hi (by omega) (by omega)
      _ ≤ _ := (List.drop_sublist _ _).countP_le

/-- Weyl's inequality for sorted eigenvalues -/
theorem sorted_close (h : Coupling lam mu W η) (hη : 0 ≤ η) {la lb : List ℝ} (ha : la.Perm (List.ofFn lam)) (hb : lb.Perm (List.ofFn mu))
    (hsa : la.Pairwise (· ≤ ·)) (hsb : lb.Pairwise (· ≤ ·)) {i : ℕ} (hi : i < la.length) (hj : i < lb.length) : |la[i] - lb[i]| ≤ η := by
  have la_len : la.length = n := by rw [ha.length_eq, List.length_ofFn]
  have lb_len : lb.length = n := by rw [hb.length_eq, List.length_ofFn]
  obtain ⟨a1, a2⟩ := card_le ha hsa hi
  obtain ⟨b1, b2⟩ := card_le hb hsb hj
  rw [abs_le]
  constructor
  · obtain ⟨i', hi', j', hj', hd⟩ := h.close hη (S := Finset.univ.filter fun j => lam j ≤ la[i]) (T := Finset.univ.filter fun j => lb[i] ≤ mu j) (by omega)
    have := (Finset.mem_filter.1 hi').2
    have := (Finset.mem_filter.1 hj').2
    have := (abs_le.1 hd).1
    linarith
  · obtain ⟨i', hi', j', hj', hd⟩ := h.close hη (S := Finset.univ.filter fun j => la[i] ≤ lam j) (T := Finset.univ.filter fun j => mu j ≤ lb[i]) (by omega)
    have := (Finset.mem_filter.1 hi').2
    have := (Finset.mem_filter.1 hj').2
    have := (abs_le.1 hd).2
    linarith

end Coupling
end GaussQuad
