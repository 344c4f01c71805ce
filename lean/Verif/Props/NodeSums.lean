import Verif.Proofs.NodeSums
import Verif.Props.Interlacing
import Verif.Props.GolubWelschMore

/-!
# C104: sums of the nodes and of their squares, products, and bounds for the largest node

`/repo/src/hermite/mod.rs:69-81`, `/repo/src/laguerre/mod.rs:75-92`, `/repo/src/jacobi/mod.rs:77-144` (`new`).
-/

namespace GaussQuad.Props
open Polynomial Spec FloatOps MeasureTheory

theorem sum_hermB_sq (n : ℕ) : ∑ i ∈ Finset.range n, hermB i ^ 2 = n * (n + 1) / 4 := by
  induction n with
  | zero => simp
  | succ n ih => rw [Finset.sum_range_succ, ih, hermB_sq]; push_cast; ring

theorem sum_ge_two {l : List ℝ} (hl : ∀ x ∈ l, 0 ≤ x) {i j : ℕ} (hi : i < l.length) (hj : j < l.length) (hij : i ≠ j) : l[i] + l[j] ≤ l.sum := by
  rw [← Fin.sum_univ_getElem l, ← Finset.add_sum_erase _ _ (Finset.mem_univ (⟨i, hi⟩ : Fin l.length)), add_le_add_iff_left]
  refine Finset.single_le_sum (f := fun k : Fin l.length => l[(k : ℕ)]) (fun k _ => hl _ (List.getElem_mem _)) (a := ⟨j, hj⟩) ?_
  simp [Ne.symm hij]

theorem le_sum_of_nonneg {l : List ℝ} (hl : ∀ x ∈ l, 0 ≤ x) {x : ℝ} (hx : x ∈ l) : x ≤ l.sum := List.single_le_sum hl x hx

/-- C104: the nodes of the Gauss-Hermite rule add up to 0, their squares to `n(n-1)/2`, and no square exceeds `n(n-1)/4` -/
theorem C104_hermite {ext : Externals ℝ} (hext : ExactSolver ext) {n : ℕ} (hn : 0 < n) :
    ∃ r : Rule ℝ, GaussHermite.new ext n = some r ∧ (r.asNodeWeightPairs.map fun p => p.1).sum = 0 ∧
      (r.asNodeWeightPairs.map fun p => p.1 ^ 2).sum = (n : ℝ) * (n - 1) / 2 ∧ ∀ p ∈ r.asNodeWeightPairs, p.1 ^ 2 ≤ n * (n - 1) / 4 := by
  obtain ⟨r, h1, h2⟩ := hermite_gauss hext hn
  have hsq : (r.nodeWeightPairs.map fun p => p.1 ^ 2).sum = (n : ℝ) * (n - 1) / 2 := by
    rw [h2.node_sum_sq hn one_pos posDef_hermite integrable_hermite hermite_orthogonal, sum_hermB_sq]
    simp only [hermA]
    push_cast [Nat.cast_sub (show 1 ≤ n from hn)]
    simp
    ring
  refine ⟨r, h1, ?_, hsq, fun p hp => ?_⟩
  · show (r.nodeWeightPairs.map Prod.fst).sum = 0
    rw [h2.node_sum hn one_pos posDef_hermite integrable_hermite hermite_orthogonal]
    simp [hermA]
  · have hp' : p ∈ r.nodeWeightPairs := hp
    have hn1 : (1 : ℝ) ≤ n := by exact_mod_cast hn
    by_cases h0 : p.1 = 0
    · rw [h0]
      have : (0 : ℝ) ≤ n * (n - 1) := mul_nonneg (by linarith) (by linarith)
      linarith
    have hrev := h2.reverse h2 one_pos posDef_hermite hermite_reflect
    have hq : (-p.1, p.2) ∈ r.nodeWeightPairs := by
      rw [hrev, List.mem_reverse]
      exact List.mem_map.2 ⟨p, hp', rfl⟩
    obtain ⟨i, hi, ei⟩ := List.mem_iff_getElem.1 hp'
    obtain ⟨j, hj, ej⟩ := List.mem_iff_getElem.1 hq
    have hij : i ≠ j := by
      rintro rfl
      rw [ei] at ej
      have := congrArg Prod.fst ej
      simp only at this
      exact h0 (by linarith)
    have := sum_ge_two (l := r.nodeWeightPairs.map fun p => p.1 ^ 2) (by
      intro x hx
      obtain ⟨q, -, rfl⟩ := List.mem_map.1 hx
      positivity) (i := i) (j := j) (by simpa using hi) (by simpa using hj) hij
    rw [hsq, List.getElem_map, List.getElem_map, ei, ej] at this
    simp only [neg_sq] at this
    linarith

theorem sum_lagA (α : ℝ) (n : ℕ) : ∑ i ∈ Finset.range n, lagA α i = n * (n + α) := by
  induction n with
  | zero => simp
  | succ n ih => rw [Finset.sum_range_succ, ih, lagA]; push_cast; ring

theorem sum_lag_sq {α : ℝ} (hα : -1 < α) (n : ℕ) :
    ∑ i ∈ Finset.range (n + 1), lagA α i ^ 2 + 2 * ∑ i ∈ Finset.range n, lagB α i ^ 2 = (n + 1) * (n + 1 + α) * (2 * (n + 1) + α - 1) := by
  induction n with
  | zero => simp [lagA]; ring
  | succ n ih =>
    rw [Finset.sum_range_succ, Finset.sum_range_succ (fun i => lagB α i ^ 2), lagB_sq hα, lagA]
    push_cast
    linarith

theorem lag_eval_zero {α : ℝ} (hα : -1 < α) : ∀ n : ℕ, (monicSeq (lagA α) (lagB α) n).eval 0 = (-1) ^ n * ∏ i ∈ Finset.range n, (α + 1 + i)
  | 0 => by simp [monicSeq]
  | 1 => by simp [monicSeq, lagA]
  | n + 2 => by
    rw [monicSeq, eval_sub, eval_mul, eval_mul, lag_eval_zero hα (n + 1), lag_eval_zero hα n, eval_C, eval_sub, eval_X, eval_C, lagB_sq hα, lagA,
      Finset.prod_range_succ _ (n + 1), Finset.prod_range_succ _ n]
    push_cast
    ring

/-- C104: the nodes of the Gauss-Laguerre rule add up to `n(n+α)`, their squares to `n(n+α)(2n+α-1)`, their product is `(α+1)(α+2)…(α+n)`; so every node is positive and at most `n(n+α)` -/
theorem C104_laguerre {ext : Externals ℝ} (hext : ExactSolver ext) {n : ℕ} (hn : 0 < n) {α : FiniteAboveNegOne ℝ} (hα : -1 < α.get) :
    ∃ r : LaguerreRule ℝ, GaussLaguerre.new ext n α = some r ∧ (r.asNodeWeightPairs.map fun p => p.1).sum = n * (n + α.get) ∧
      (r.asNodeWeightPairs.map fun p => p.1 ^ 2).sum = n * (n + α.get) * (2 * n + α.get - 1) ∧
      (r.asNodeWeightPairs.map fun p => p.1).prod = ∏ i ∈ Finset.range n, (α.get + 1 + i) ∧ ∀ p ∈ r.asNodeWeightPairs, 0 < p.1 ∧ p.1 ≤ n * (n + α.get) := by
  obtain ⟨r, h1, -, h2⟩ := laguerre_gauss hext hn α hα
  have hc := laguerre_factor_pos hα
  have hsum : (r.nodeWeightPairs.map Prod.fst).sum = n * (n + α.get) := by
    rw [h2.node_sum hn hc (posDef_laguerre hα) (integrable_laguerre hα) (laguerre_orthogonal hα), sum_lagA]
  have hpos : ∀ p ∈ r.nodeWeightPairs, 0 < p.1 := gauss_nodes_gt hc h2.exact' (posDef_laguerre hα) (fun x hx => (show (0 : ℝ) < x from hx).le)
  refine ⟨r, h1, hsum, ?_, ?_, fun p hp => ⟨hpos p hp, ?_⟩⟩
  · show (r.nodeWeightPairs.map fun p => p.1 ^ 2).sum = _
    rw [h2.node_sum_sq hn hc (posDef_laguerre hα) (integrable_laguerre hα) (laguerre_orthogonal hα)]
    obtain ⟨m, rfl⟩ : ∃ m, n = m + 1 := ⟨n - 1, by omega⟩
    rw [show m + 1 - 1 = m from rfl, sum_lag_sq hα]
    push_cast
    ring
  · show (r.nodeWeightPairs.map Prod.fst).prod = _
    have e : (rootPoly (r.nodeWeightPairs.map Prod.fst)).eval 0 = (monicSeq (lagA α.get) (lagB α.get) n).eval 0 := by
      rw [h2.rootPoly hn hc (posDef_laguerre hα) (integrable_laguerre hα) (laguerre_orthogonal hα)]
    rw [rootPoly_eval, lag_eval_zero hα] at e
    simp only [zero_sub] at e
    rw [List.prod_map_neg, List.length_map, h2.length] at e
    exact mul_left_cancel₀ (pow_ne_zero n (by norm_num)) e
  · rw [← hsum]
    refine le_sum_of_nonneg (fun x hx => ?_) (List.mem_map.2 ⟨p, hp, rfl⟩)
    obtain ⟨q, hq, rfl⟩ := List.mem_map.1 hx
    exact (hpos q hq).le

theorem sum_jacB_sq {α : ℝ} (hα : -1 < α) (hs : α + α ≠ -1) (n : ℕ) : ∑ i ∈ Finset.range n, jacB α α i ^ 2 = (n + 1) * n / (2 * (2 * n + 2 * α + 1)) := by
  induction n with
  | zero => simp
  | succ n ih =>
    have hn0 : (0 : ℝ) ≤ n := Nat.cast_nonneg n
    have h1 : 2 * (n : ℝ) + 2 * α + 1 ≠ 0 := by
      rcases Nat.eq_zero_or_pos n with rfl | h
      · intro h; apply hs; push_cast at h; linarith
      · have : (1 : ℝ) ≤ n := by exact_mod_cast h
        linarith
    have h2 : 2 * (n : ℝ) + 2 * α + 3 ≠ 0 := by linarith
    have h3 : (n : ℝ) + 1 + α ≠ 0 := by linarith
    rw [Finset.sum_range_succ, ih, jacB_sq hα hα hs]
    have e : 4 * ((n : ℝ) + 1) * (n + 1 + α) * (n + 1 + α) * (n + 1 + α + α) / ((2 * (n + 1) + α + α) ^ 2 * ((2 * (n + 1) + α + α + 1) * (2 * (n + 1) + α + α - 1))) =
        (n + 1) * (n + 1 + 2 * α) / ((2 * n + 2 * α + 3) * (2 * n + 2 * α + 1)) := by
      rw [div_eq_div_iff (by
        refine mul_ne_zero (pow_ne_zero 2 ?_) (mul_ne_zero ?_ ?_)
        · intro h; apply h3; linarith
        · intro h; apply h2; linarith
        · intro h; apply h1; linarith) (mul_ne_zero h2 h1)]
      ring
    rw [e]
    push_cast
    rw [div_add_div _ _ (mul_ne_zero two_ne_zero h1) (mul_ne_zero h2 h1), div_eq_div_iff (mul_ne_zero (mul_ne_zero two_ne_zero h1) (mul_ne_zero h2 h1))
      (mul_ne_zero two_ne_zero (by intro h; apply h2; linarith))]
    ring

/-- C104: the nodes of the Gauss-Jacobi rule add up to `n(β-α)/(2n+α+β)`; for `α = β` their squares add up to `n(n-1)/(2n+2α-1)` -/
theorem C104_jacobi {ext : Externals ℝ} (hext : ExactSolver ext) (mode : Overflow) {n : ℕ} (hn : 0 < n) {α β : FiniteAboveNegOne ℝ} (hα : -1 < α.get) (hβ : -1 < β.get)
    (hs : α.get + β.get ≠ -1) (hd : ¬ Delegated α.get β.get) (hodd : n % 2 = 0 ∨ n = 1 ∨ α = β) :
    ∃ r : JacobiRule ℝ, GaussJacobi.new mode ext n α β = some r ∧ (r.asNodeWeightPairs.map fun p => p.1).sum = n * (β.get - α.get) / (2 * n + α.get + β.get) ∧
      (α = β → (r.asNodeWeightPairs.map fun p => p.1 ^ 2).sum = n * (n - 1) / (2 * n + 2 * α.get - 1)) := by
  obtain ⟨r, c, h1, hc, -, h2⟩ := jacobi_isGauss hext mode hn hα hβ hs hd hodd
  refine ⟨r, h1, jacobi_node_sum hα hβ hs hc hn h2, ?_⟩
  rintro rfl
  show (r.nodeWeightPairs.map fun p => p.1 ^ 2).sum = _
  rw [h2.node_sum_sq hn hc (posDef_jacobi hα hα) (integrable_jacobi hα hα) (jacobi_orthogonal hα hα hs), sum_jacB_sq hα hs]
  have h0 : ∑ i ∈ Finset.range n, jacA α.get α.get i ^ 2 = 0 := Finset.sum_eq_zero fun i _ => by simp [jacA]
  rw [h0]
  push_cast [Nat.cast_sub (show 1 ≤ n from hn)]
  rw [show 2 * (2 * ((n : ℝ) - 1) + 2 * α.get + 1) = 2 * (2 * n + 2 * α.get - 1) by ring, zero_add, mul_div_assoc', mul_div_mul_left _ _ two_ne_zero]
  ring

/-- the four nodes for Hermite: squares add up to 6, each at most 3; Laguerre with `α = 0`: sum 16, squares 112, product 24 -/
example : ∃ ext : Externals ℝ, ExactSolver ext ∧
    (∃ r : Rule ℝ, GaussHermite.new ext 4 = some r ∧ (r.asNodeWeightPairs.map fun p => p.1 ^ 2).sum = 6 ∧ ∀ p ∈ r.asNodeWeightPairs, p.1 ^ 2 ≤ 3) ∧
    (∃ r : LaguerreRule ℝ, GaussLaguerre.new ext 4 ⟨0⟩ = some r ∧ (r.asNodeWeightPairs.map fun p => p.1).sum = 16 ∧
      (r.asNodeWeightPairs.map fun p => p.1 ^ 2).sum = 112 ∧ (r.asNodeWeightPairs.map fun p => p.1).prod = 24) ∧
    ∃ r : JacobiRule ℝ, GaussJacobi.new .checked ext 4 ⟨1⟩ ⟨3⟩ = some r ∧ (r.asNodeWeightPairs.map fun p => p.1).sum = 2 / 3 := by
  refine ⟨_, exactSolver_exists, ?_, ?_, ?_⟩
  · obtain ⟨r, h1, -, h2, h3⟩ := C104_hermite exactSolver_exists (n := 4) (by norm_num)
    refine ⟨r, h1, by rw [h2]; norm_num, fun p hp => (h3 p hp).trans (by norm_num)⟩
  · obtain ⟨r, h1, h2, h3, h4, -⟩ := C104_laguerre exactSolver_exists (n := 4) (by norm_num) (α := ⟨0⟩) (by norm_num)
    refine ⟨r, h1, by rw [h2]; norm_num, by rw [h3]; norm_num, by rw [h4]; norm_num [Finset.prod_range_succ]⟩
  · obtain ⟨r, h1, h2, -⟩ := C104_jacobi exactSolver_exists .checked (n := 4) (by norm_num) (α := ⟨1⟩) (β := ⟨3⟩) (by norm_num) (by norm_num) (by norm_num)
      (by rintro (⟨h, -⟩ | ⟨h, -⟩ | ⟨h, -⟩) <;> norm_num at h) (Or.inl rfl)
    exact ⟨r, h1, by rw [h2]; norm_num⟩

end GaussQuad.Props
