import Verif.Proofs.JacobiRate
import Verif.Props.GolubWelschExact

/-!
# Where the middle node of a Gauss-Jacobi rule of odd degree lies
-/

namespace GaussQuad
open Polynomial Spec MeasureTheory

variable {α β : ℝ} {L : List (ℝ × ℝ)} {n : ℕ} {c : ℝ}

/-- for `|α|, |β| ≥ 1/2` the angles of the nodes are at least `π / (n + (α+β+1)/2)` apart -/
theorem jacobi_angle_gap (hα : -1 < α) (hβ : -1 < β) (hs : α + β ≠ -1) (hα2 : 1 / 4 ≤ α ^ 2) (hβ2 : 1 / 4 ≤ β ^ 2) (hc : 0 < c) (hn : 0 < n)
    (h : IsGauss L n (Set.Ioo (-1) 1) (jacW α β) c) (i : ℕ) : ∀ (k : ℕ) (hk : i + k < L.length),
    k * (Real.pi / (n + (α + β + 1) / 2)) ≤ Real.arccos (L[i]'(by omega)).1 - Real.arccos (L[i + k]).1 := by
  have hn1 : (1 : ℝ) ≤ n := by exact_mod_cast hn
  intro k
  induction k with
  | zero => intro hk; simp
  | succ k ih =>
    intro hk
    have h1 := ih (by omega)
    have hst := h.strict hc (posDef_jacobi hα hβ)
    have hlt : (L[i + k]'(by omega)).1 < (L[i + (k + 1)]).1 := by
      have := List.pairwise_iff_getElem.1 hst (i + k) (i + (k + 1)) (by simp; omega) (by simp; omega) (by omega)
      simpa using this
    have hp := jacobi_nodes hα hβ h hc (L[i + k]'(by omega)) (List.getElem_mem _)
    have hq := jacobi_nodes hα hβ h hc (L[i + (k + 1)]) (List.getElem_mem _)
    have hg := jacobi_gap hα hβ hs hc hn h (List.mem_map.2 ⟨_, List.getElem_mem (show i + k < L.length by omega), rfl⟩)
      (List.mem_map.2 ⟨_, List.getElem_mem hk, rfl⟩) hp.1 hq.2 hlt
    rw [max_eq_left (by linarith), max_eq_left (by linarith), zero_div, zero_div, add_zero, add_zero, Real.sqrt_sq (by linarith)] at hg
    push_cast
    linarith

/-- bounds for the angle of the `k`-th node -/
theorem jacobi_angle_bounds (hα : -1 < α) (hβ : -1 < β) (hs : α + β ≠ -1) (hα2 : 1 / 4 ≤ α ^ 2) (hβ2 : 1 / 4 ≤ β ^ 2) (hc : 0 < c) (hn : 0 < n)
    (h : IsGauss L n (Set.Ioo (-1) 1) (jacW α β) c) {k : ℕ} (hk : k < L.length) :
    ((n - 1 - k : ℕ) : ℝ) * (Real.pi / (n + (α + β + 1) / 2)) ≤ Real.arccos (L[k]).1 ∧
    (k : ℝ) * (Real.pi / (n + (α + β + 1) / 2)) ≤ Real.pi - Real.arccos (L[k]).1 := by
  have hlen := h.length
  constructor
  · have := jacobi_angle_gap hα hβ hs hα2 hβ2 hc hn h k (n - 1 - k) (by omega)
    linarith [Real.arccos_nonneg (L[k + (n - 1 - k)]'(by omega)).1]
  · have := jacobi_angle_gap hα hβ hs hα2 hβ2 hc hn h 0 k (by omega)
    simp only [zero_add] at this
    linarith [Real.arccos_le_pi (L[0]'(by omega)).1]

theorem le_pi_half_sub_arccos {x : ℝ} (h0 : 0 ≤ x) (h1 : x ≤ 1) : x ≤ Real.pi / 2 - Real.arccos x := by
  rw [Real.arccos_eq_pi_div_two_sub_arcsin, sub_sub_cancel]
  have := Real.sin_le (x := Real.arcsin x) (Real.arcsin_nonneg.2 h0)
  rwa [Real.sin_arcsin (by linarith) h1] at this

/-- a parameter at most `α` outside `(-1/2, 1/2)` -/
theorem exists_below (hα : -1 < α) : ∃ α', -1 < α' ∧ α' ≤ α ∧ 1 / 4 ≤ α' ^ 2 ∧ (α' ≤ -1 / 2 ∨ 1 / 2 ≤ α') ∧ α' ≤ |α| := by
  rcases le_or_gt α (-1 / 2) with h | h
  · exact ⟨α, hα, le_rfl, by nlinarith, .inl h, le_abs_self _⟩
  rcases lt_or_ge α (1 / 2) with h' | h'
  · exact ⟨-1 / 2, by norm_num, h.le, by norm_num, .inl le_rfl, by linarith [abs_nonneg α]⟩
  · exact ⟨α, hα, le_rfl, by nlinarith, .inr h', le_abs_self _⟩

/-- a parameter at least `β`, below `-1/2` or at least `1/2` -/
theorem exists_above (hβ : -1 < β) : ∃ β', -1 < β' ∧ β ≤ β' ∧ 1 / 4 ≤ β' ^ 2 ∧ (β' < -1 / 2 ∨ 1 / 2 ≤ β') ∧ β' ≤ |β| + 1 := by
  rcases lt_or_ge β (-1 / 2) with h | h
  · exact ⟨β, hβ, le_rfl, by nlinarith, .inl h, by linarith [le_abs_self β]⟩
  rcases lt_or_ge β (1 / 2) with h' | h'
  · exact ⟨1 / 2, by norm_num, h'.le, by norm_num, .inr le_rfl, by linarith [abs_nonneg β]⟩
  · exact ⟨β, hβ, le_rfl, by nlinarith, .inr h', by linarith [le_abs_self β]⟩

theorem markov_le {ext : Externals ℝ} (hext : ExactSolver ext) (hα : -1 < α) (hβ : -1 < β) (hc : 0 < c) (hn : 0 < n)
    (h : IsGauss L n (Set.Ioo (-1) 1) (jacW α β) c) {k : ℕ} (hk : k < L.length) {α' β' : ℝ} (hα' : -1 < α') (hβ' : -1 < β') (hs' : α' + β' ≠ -1) :
    ∃ (c' : ℝ) (L' : List (ℝ × ℝ)), 0 < c' ∧ IsGauss L' n (Set.Ioo (-1) 1) (jacW α' β') c' ∧ ∃ hk' : k < L'.length,
      (α' ≤ α → β ≤ β' → (L[k]).1 ≤ (L'[k]).1) ∧ (α ≤ α' → β' ≤ β → (L'[k]).1 ≤ (L[k]).1) := by
  obtain ⟨L', -, h'⟩ := jacobi_golub hext hn hα' hβ' hs'
  have hc' := jacobiFactor_pos hα' hβ' hs'
  have hk' : k < L'.length := by rw [h'.length, ← h.length]; exact hk
  refine ⟨_, L', hc', h', hk', fun h1 h2 => ?_, fun h1 h2 => ?_⟩ <;> by_cases he : (α', β') = (α, β)
  · obtain ⟨rfl, rfl⟩ := Prod.mk.inj he
    have hp := gauss_nodes_unique hc' hc (h.length.trans h'.length.symm) h'.exact' (by rw [h'.length, ← h.length]; exact h.exact') (posDef_jacobi hα hβ)
    have : L.map Prod.fst = L'.map Prod.fst :=
      (List.Perm.eq_of_pairwise (fun _ _ _ _ p q => (p.not_gt q).elim) (h.strict hc (posDef_jacobi hα hβ)) (h'.strict hc' (posDef_jacobi hα hβ)) hp.symm)
    have e := List.getElem_of_eq this (i := k) (by simpa using hk)
    simp only [List.getElem_map] at e
    exact e.le
  · exact (jacobi_markov hα' hβ' hα hβ h1 h2 he hc' hc h' h hk' hk).le
  · obtain ⟨rfl, rfl⟩ := Prod.mk.inj he
    have hp := gauss_nodes_unique hc' hc (h.length.trans h'.length.symm) h'.exact' (by rw [h'.length, ← h.length]; exact h.exact') (posDef_jacobi hα hβ)
    have : L.map Prod.fst = L'.map Prod.fst :=
      (List.Perm.eq_of_pairwise (fun _ _ _ _ p q => (p.not_gt q).elim) (h.strict hc (posDef_jacobi hα hβ)) (h'.strict hc' (posDef_jacobi hα hβ)) hp.symm)
    have e := List.getElem_of_eq this (i := k) (by simpa using hk)
    simp only [List.getElem_map] at e
    exact e.ge
  · exact (jacobi_markov hα hβ hα' hβ' h1 h2 (fun e => he e.symm) hc hc' h h' hk hk').le

theorem jacobi_middle_le {ext : Externals ℝ} (hext : ExactSolver ext) (hα : -1 < α) (hβ : -1 < β) (hc : 0 < c)
    (h : IsGauss L n (Set.Ioo (-1) 1) (jacW α β) c) (hodd : n % 2 = 1) (hlt : n / 2 < L.length) :
    (L[n / 2]).1 ≤ Real.pi * (|α| + |β| + 4) / (4 * n - 2) := by
  have hn : 0 < n := by omega
  have hn1 : (1 : ℝ) ≤ n := by exact_mod_cast hn
  have hpi := Real.pi_pos
  obtain ⟨α', a1, a2, a3, a4, a5⟩ := exists_below hα
  obtain ⟨β', b1, b2, b3, b4, b5⟩ := exists_above hβ
  have hs' : α' + β' ≠ -1 := by
    rcases a4 with a | a <;> rcases b4 with b | b <;> intro he <;> linarith
  obtain ⟨c', L', hc', h', hk', hle, -⟩ := markov_le hext hα hβ hc hn h hlt a1 b1 hs'
  refine (hle a2 b2).trans ?_
  have hb := (jacobi_angle_bounds a1 b1 hs' a3 b3 hc' hn h' hk').1
  have hx := jacobi_nodes a1 b1 h' hc' _ (List.getElem_mem hk')
  set x := (L'[n / 2]).1
  have hR : 0 ≤ Real.pi * (|α| + |β| + 4) / (4 * n - 2) := by
    have := abs_nonneg α; have := abs_nonneg β
    exact div_nonneg (by positivity) (by linarith)
  rcases le_or_gt x 0 with h0 | h0
  · exact h0.trans hR
  have h1 := le_pi_half_sub_arccos h0.le hx.2.le
  have e : ((n - 1 - n / 2 : ℕ) : ℝ) = (n - 1) / 2 := by
    have : 2 * (n - 1 - n / 2) + 1 = n := by omega
    have : (2 * ((n - 1 - n / 2 : ℕ) : ℝ) + 1) = n := by exact_mod_cast this
    linarith
  rw [e] at hb
  have hN : 0 < n + (α' + β' + 1) / 2 := by linarith
  have h2 : x ≤ Real.pi * (α' + β' + 3) / (4 * n + 2 * (α' + β' + 1)) := by
    have : Real.pi / 2 - (n - 1) / 2 * (Real.pi / (n + (α' + β' + 1) / 2)) = Real.pi * (α' + β' + 3) / (4 * n + 2 * (α' + β' + 1)) := by
      have e2 : α' + β' = 2 * (n + (α' + β' + 1) / 2) - 2 * n - 1 := by ring
      generalize (n : ℝ) + (α' + β' + 1) / 2 = N at e2 hN
      rw [e2, show 4 * (n : ℝ) + 2 * (2 * N - 2 * n - 1 + 1) = 4 * N by ring]
      field_simp
      ring
    linarith
  refine h2.trans ?_
  have habs : α' + β' + 3 ≤ |α| + |β| + 4 := by linarith
  exact div_le_div₀ (by have := abs_nonneg α; have := abs_nonneg β; positivity) (mul_le_mul_of_nonneg_left habs hpi.le) (by linarith) (by linarith)

/-- the middle node of the Gauss-Jacobi rule of odd degree `n` is at most `π(|α|+|β|+4)/(4n-2)` from 0 -/
theorem jacobi_middle_abs {ext : Externals ℝ} (hext : ExactSolver ext) (hα : -1 < α) (hβ : -1 < β) (hs : α + β ≠ -1)
    (h : IsGauss L n (Set.Ioo (-1) 1) (jacW α β) (jacobiFactor α β)) (hodd : n % 2 = 1) (hlt : n / 2 < L.length) :
    |(L[n / 2]).1| ≤ Real.pi * (|α| + |β| + 4) / (4 * n - 2) := by
  have hn : 0 < n := by omega
  have hc := jacobiFactor_pos hα hβ hs
  obtain ⟨L', -, h'⟩ := jacobi_golub hext hn hβ hα (by rwa [add_comm])
  have hc' := jacobiFactor_pos hβ hα (by rwa [add_comm])
  have hlt' : n / 2 < L'.length := by rw [h'.length]; omega
  have e : L = (L'.map fun p => (-p.1, p.2)).reverse := by
    rw [jacobiFactor_comm] at h'
    exact h.reverse h' hc (posDef_jacobi hα hβ) (jacobi_reflect _ _)
  have e1 : (L[n / 2]).1 = -(L'[n / 2]).1 := by
    have hl := h'.length
    rw [List.getElem_of_eq e, List.getElem_reverse, List.getElem_map]
    simp only [List.length_map, hl]
    congr 3
    omega
  rw [abs_le]
  refine ⟨?_, jacobi_middle_le hext hα hβ hc h hodd hlt⟩
  have := jacobi_middle_le hext hβ hα hc' h' hodd hlt'
  rw [e1, show |α| + |β| = |β| + |α| by ring]
  linarith

/-- for `α ≤ 3/2` the node after the middle one is nonnegative -/
theorem jacobi_next_nonneg {ext : Externals ℝ} (hext : ExactSolver ext) (hα : -1 < α) (hβ : -1 < β) (hc : 0 < c) (hα1 : α ≤ 3 / 2)
    (h : IsGauss L n (Set.Ioo (-1) 1) (jacW α β) c) (hodd : n % 2 = 1) (hlt : n / 2 + 1 < L.length) : 0 ≤ (L[n / 2 + 1]).1 := by
  have hn : 0 < n := by omega
  have hn1 : (1 : ℝ) ≤ n := by exact_mod_cast hn
  have hpi := Real.pi_pos
  obtain ⟨α', a1, a2, a3, a4⟩ : ∃ α' : ℝ, 1 / 2 ≤ α' ∧ α ≤ α' ∧ 1 / 4 ≤ α' ^ 2 ∧ α' ≤ 3 / 2 :=
    ⟨max α (1 / 2), le_max_right _ _, le_max_left _ _, by nlinarith [le_max_right α (1 / 2)], max_le hα1 (by norm_num)⟩
  obtain ⟨β', b1, b2, b3, b4⟩ : ∃ β' : ℝ, -1 < β' ∧ β' ≤ β ∧ 1 / 4 ≤ β' ^ 2 ∧ β' ≤ -1 / 2 :=
    ⟨min β (-1 / 2), lt_min hβ (by norm_num), min_le_left _ _, by nlinarith [min_le_right β (-1 / 2)], min_le_right _ _⟩
  have hs' : α' + β' ≠ -1 := by intro he; linarith
  obtain ⟨c', L', hc', h', hk', -, hle⟩ := markov_le hext hα hβ hc hn h hlt (by linarith : -1 < α') b1 hs'
  refine le_trans ?_ (hle a2 b2)
  have hb := (jacobi_angle_bounds (by linarith) b1 hs' a3 b3 hc' hn h' hk').2
  have hx := jacobi_nodes (by linarith) b1 h' hc' _ (List.getElem_mem hk')
  set x := (L'[n / 2 + 1]).1
  have e : ((n / 2 + 1 : ℕ) : ℝ) = (n + 1) / 2 := by
    have : 2 * (n / 2 + 1) = n + 1 := by omega
    have : (2 * ((n / 2 + 1 : ℕ) : ℝ)) = n + 1 := by exact_mod_cast this
    linarith
  rw [e] at hb
  have hN : 0 < n + (α' + β' + 1) / 2 := by linarith
  have h2 : Real.pi / 2 ≤ (n + 1) / 2 * (Real.pi / (n + (α' + β' + 1) / 2)) := by
    rw [← mul_div_assoc, le_div_iff₀ hN]
    nlinarith
  have h3 : Real.arccos x ≤ Real.pi / 2 := by linarith
  exact Real.arccos_le_pi_div_two.1 h3

/-- for `β ≤ 3/2` the node before the middle one is nonpositive -/
theorem jacobi_prev_nonpos {ext : Externals ℝ} (hext : ExactSolver ext) (hα : -1 < α) (hβ : -1 < β) (hs : α + β ≠ -1) (hβ1 : β ≤ 3 / 2)
    (h : IsGauss L n (Set.Ioo (-1) 1) (jacW α β) (jacobiFactor α β)) (hodd : n % 2 = 1) (hn1 : 1 < n) (hlt : n / 2 - 1 < L.length) : (L[n / 2 - 1]).1 ≤ 0 := by
  have hc := jacobiFactor_pos hα hβ hs
  obtain ⟨L', -, h'⟩ := jacobi_golub hext (by omega : 0 < n) hβ hα (by rwa [add_comm])
  have hc' := jacobiFactor_pos hβ hα (by rwa [add_comm])
  have hlt' : n / 2 + 1 < L'.length := by rw [h'.length]; omega
  have e : L = (L'.map fun p => (-p.1, p.2)).reverse := by
    rw [jacobiFactor_comm] at h'
    exact h.reverse h' hc (posDef_jacobi hα hβ) (jacobi_reflect _ _)
  have e1 : (L[n / 2 - 1]).1 = -(L'[n / 2 + 1]).1 := by
    have hl := h'.length
    rw [List.getElem_of_eq e, List.getElem_reverse, List.getElem_map]
    simp only [List.length_map, hl]
    congr 3
    omega
  rw [e1]
  linarith [jacobi_next_nonneg hext hβ hα hc' hβ1 h' hodd hlt']

end GaussQuad
