import Verif.Proofs.GolubRules
import Verif.Proofs.GaussRemainder

/-!
# Sums of the nodes of a Gauss rule from the recurrence coefficients
-/

namespace GaussQuad
open Polynomial Spec MeasureTheory

/-- the polynomial with the roots `l` -/
noncomputable def rootPoly (l : List ℝ) : ℝ[X] := (l.map fun x => X - C x).prod

theorem rootPoly_cons (x : ℝ) (l : List ℝ) : rootPoly (x :: l) = (X - C x) * rootPoly l := by simp [rootPoly]

theorem coeff_linear_mul (x : ℝ) (p : ℝ[X]) (m : ℕ) : ((X - C x) * p).coeff (m + 1) = p.coeff m - x * p.coeff (m + 1) := by
  rw [sub_mul, coeff_sub, coeff_X_mul, coeff_C_mul]

theorem rootPoly_top (l : List ℝ) : (rootPoly l).coeff l.length = 1 ∧ ∀ m, l.length < m → (rootPoly l).coeff m = 0 := by
  induction l with
  | nil => simp [rootPoly, coeff_one]; omega
  | cons x l ih =>
    rw [rootPoly_cons]
    refine ⟨?_, fun m hm => ?_⟩
    · rw [List.length_cons, coeff_linear_mul, ih.1, ih.2 _ (by omega)]; ring
    · obtain ⟨m, rfl⟩ : ∃ k, m = k + 1 := ⟨m - 1, by simp at hm; omega⟩
      rw [List.length_cons] at hm
      rw [coeff_linear_mul, ih.2 _ (by omega), ih.2 _ (by omega)]; ring

theorem rootPoly_first (l : List ℝ) : ∀ m, l.length = m + 1 → (rootPoly l).coeff m = -l.sum := by
  induction l with
  | nil => intro m h; simp at h
  | cons x l ih =>
    intro m h
    rw [List.length_cons, Nat.add_right_cancel_iff] at h
    rw [rootPoly_cons, List.sum_cons]
    rcases m with - | m
    · have : l = [] := List.length_eq_zero_iff.1 h
      subst this
      simp [rootPoly]
    · rw [coeff_linear_mul, ih m h, ← h, (rootPoly_top l).1]; ring

theorem rootPoly_second (l : List ℝ) : ∀ m, l.length = m + 2 → (rootPoly l).coeff m = (l.sum ^ 2 - (l.map (· ^ 2)).sum) / 2 := by
  induction l with
  | nil => intro m h; simp at h
  | cons x l ih =>
    intro m h
    rw [List.length_cons, show m + 2 = m + 1 + 1 from rfl, Nat.add_right_cancel_iff] at h
    rw [rootPoly_cons, List.sum_cons, List.map_cons, List.sum_cons]
    have h1 := rootPoly_first l m h
    rcases m with - | m
    · obtain ⟨y, rfl⟩ := List.length_eq_one_iff.1 h
      simp [rootPoly]
      ring
    · rw [coeff_linear_mul, ih m h, h1]; ring

variable {a b : ℕ → ℝ}

theorem monicSeq_top (k : ℕ) : (monicSeq a b k).coeff k = 1 ∧ (monicSeq a b k).coeff (k + 1) = 0 := by
  obtain ⟨h1, h2⟩ := monicSeq_degree a b k
  refine ⟨?_, coeff_eq_zero_of_natDegree_lt (by omega)⟩
  have := h1.coeff_natDegree
  rwa [h2] at this

theorem monicSeq_first (m : ℕ) : (monicSeq a b (m + 1)).coeff m = -∑ i ∈ Finset.range (m + 1), a i := by
  induction m with
  | zero => simp [monicSeq]
  | succ m ih =>
    rw [monicSeq, coeff_sub, coeff_linear_mul, ih, coeff_C_mul, (monicSeq_top (m + 1)).1, (monicSeq_top m).2, Finset.sum_range_succ _ (m + 1)]
    ring

theorem monicSeq_second (m : ℕ) : (monicSeq a b (m + 2)).coeff m =
    ((∑ i ∈ Finset.range (m + 2), a i) ^ 2 - ∑ i ∈ Finset.range (m + 2), a i ^ 2) / 2 - ∑ i ∈ Finset.range (m + 1), b i ^ 2 := by
  induction m with
  | zero =>
    simp only [monicSeq, coeff_sub, Finset.sum_range_succ, Finset.sum_range_zero, mul_coeff_zero, coeff_X_zero, coeff_C_zero, coeff_one_zero]
    ring
  | succ m ih =>
    rw [monicSeq, coeff_sub, coeff_linear_mul, ih, coeff_C_mul, monicSeq_first (m + 1), (monicSeq_top (m + 1)).1, Finset.sum_range_succ _ (m + 2),
      Finset.sum_range_succ (fun i => a i ^ 2) (m + 2), Finset.sum_range_succ (fun i => b i ^ 2) (m + 1)]
    ring

/-- the nodes of the rule are the roots of the orthogonal polynomial, with multiplicity -/
theorem IsGauss.rootPoly {L : List (ℝ × ℝ)} {n : ℕ} {S : Set ℝ} {w : ℝ → ℝ} {c : ℝ} (h : IsGauss L n S w c) (hn : 0 < n) (hc : 0 < c) (hpos : PosDef S w)
    (hint : ∀ p : ℝ[X], IntegrableOn (fun x => p.eval x * w x) S) (ho : ∀ m, 1 ≤ m → weightFunctional S w hint (monicSeq a b m) = 0) :
    rootPoly (L.map Prod.fst) = monicSeq a b n := by
  have hnd := gauss_nodes_nodup hc h.exact' hpos
  have e := nodal_eq_monicSeq (by rw [h.length]; exact hn) hc h.exact' hnd hpos hint ho
  rw [h.length] at e
  rw [← e, Lagrange.nodal, nodeSet, List.prod_toFinset _ hnd]
  rfl

theorem IsGauss.node_sum {L : List (ℝ × ℝ)} {n : ℕ} {S : Set ℝ} {w : ℝ → ℝ} {c : ℝ} (h : IsGauss L n S w c) (hn : 0 < n) (hc : 0 < c) (hpos : PosDef S w)
    (hint : ∀ p : ℝ[X], IntegrableOn (fun x => p.eval x * w x) S) (ho : ∀ m, 1 ≤ m → weightFunctional S w hint (monicSeq a b m) = 0) :
    (L.map Prod.fst).sum = ∑ i ∈ Finset.range n, a i := by
  obtain ⟨m, rfl⟩ : ∃ m, n = m + 1 := ⟨n - 1, by omega⟩
  have e : (GaussQuad.rootPoly (L.map Prod.fst)).coeff m = (monicSeq a b (m + 1)).coeff m := by rw [h.rootPoly hn hc hpos hint ho]
  rw [rootPoly_first _ m (by rw [List.length_map, h.length]), monicSeq_first] at e
  linarith

theorem IsGauss.node_sum_sq {L : List (ℝ × ℝ)} {n : ℕ} {S : Set ℝ} {w : ℝ → ℝ} {c : ℝ} (h : IsGauss L n S w c) (hn : 0 < n) (hc : 0 < c) (hpos : PosDef S w)
    (hint : ∀ p : ℝ[X], IntegrableOn (fun x => p.eval x * w x) S) (ho : ∀ m, 1 ≤ m → weightFunctional S w hint (monicSeq a b m) = 0) :
    (L.map fun p => p.1 ^ 2).sum = ∑ i ∈ Finset.range n, a i ^ 2 + 2 * ∑ i ∈ Finset.range (n - 1), b i ^ 2 := by
  have e1 := h.node_sum hn hc hpos hint ho
  have e0 : (L.map fun p => p.1 ^ 2) = (L.map Prod.fst).map (· ^ 2) := by simp
  rw [e0]
  obtain ⟨m, rfl⟩ : ∃ m, n = m + 1 := ⟨n - 1, by omega⟩
  rcases m with - | m
  · obtain ⟨p, hp⟩ := List.length_eq_one_iff.1 h.length
    subst hp
    simp at e1 ⊢
    rw [e1]
  · have e : (GaussQuad.rootPoly (L.map Prod.fst)).coeff m = (monicSeq a b (m + 2)).coeff m := by rw [h.rootPoly hn hc hpos hint ho]
    rw [rootPoly_second _ m (by rw [List.length_map, h.length]), monicSeq_second, e1] at e
    rw [show m + 1 + 1 - 1 = m + 1 from rfl]
    linarith

theorem rootPoly_eval (l : List ℝ) (x : ℝ) : (rootPoly l).eval x = (l.map fun y => x - y).prod := by
  induction l with
  | nil => simp [rootPoly]
  | cons y l ih => rw [rootPoly_cons, eval_mul, ih]; simp

/-- the sum of the first `n` diagonal coefficients of the Jacobi recurrence -/
theorem jacA_sum {α β : ℝ} (hα : -1 < α) (hβ : -1 < β) (n : ℕ) (hn : 0 < n) : ∑ i ∈ Finset.range n, jacA α β i = n * (β - α) / (2 * n + α + β) := by
  induction n with
  | zero => omega
  | succ n ih =>
    rcases Nat.eq_zero_or_pos n with rfl | h
    · simp [jacA]; ring_nf
    · rw [Finset.sum_range_succ, ih h, jacA, if_neg (by omega)]
      have hn1 : (1 : ℝ) ≤ n := by exact_mod_cast h
      have h1 : 2 * (n : ℝ) + α + β ≠ 0 := by linarith
      have h2 : 2 * (n : ℝ) + α + β + 2 ≠ 0 := by linarith
      have h3 : 2 * ((n + 1 : ℕ) : ℝ) + α + β = 2 * (n : ℝ) + α + β + 2 := by push_cast; ring
      rw [h3]
      push_cast
      rw [div_add_div _ _ h1 (mul_ne_zero h1 h2), div_eq_div_iff (mul_ne_zero h1 (mul_ne_zero h1 h2)) h2]
      ring

theorem jacobi_node_sum {α β : ℝ} {L : List (ℝ × ℝ)} {n : ℕ} {c : ℝ} (hα : -1 < α) (hβ : -1 < β) (hs : α + β ≠ -1) (hc : 0 < c) (hn : 0 < n)
    (h : IsGauss L n (Set.Ioo (-1) 1) (jacW α β) c) : (L.map Prod.fst).sum = n * (β - α) / (2 * n + α + β) := by
  rw [h.node_sum hn hc (posDef_jacobi hα hβ) (integrable_jacobi hα hβ) (jacobi_orthogonal hα hβ hs), jacA_sum hα hβ n hn]

end GaussQuad
