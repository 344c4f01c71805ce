import Verif.Proofs.GaussUnique
import Mathlib.Topology.Algebra.Polynomial
import Mathlib.Topology.Order.IntermediateValue
import Mathlib.Order.Fin.Basic

/-! The nodes of two Gauss rules of consecutive degrees for the same weight function interlace. -/

namespace GaussQuad
open Polynomial Spec MeasureTheory

section
variable {L L' : List (ℝ × ℝ)} {S : Set ℝ} {w : ℝ → ℝ} {c c' : ℝ}

/-- at the `i`-th node of the larger rule, the node polynomial of the smaller rule has the sign of `∏_{j≠i} (x_i - x_j)` -/
theorem nodePoly_sign (hc : 0 < c) (hc' : 0 < c') (hex : ExactUpTo L (2 * L.length - 1) S w c) (hex' : ExactUpTo L' (2 * L'.length - 1) S w c')
    (hlen : L'.length = L.length + 1) (hpos : PosDef S w) (hint : ∀ p : ℝ[X], IntegrableOn (fun x => p.eval x * w x) S) (i : Fin L'.length) :
    0 < (nodePoly L).eval (L'.get i).1 * (others L' i).eval (L'.get i).1 := by
  set p := nodePoly L with hp
  set q := others L' i with hq
  have hpm : p.Monic := nodePoly_monic L
  have hqm : q.Monic := others_monic i
  have hpd : p.natDegree = L.length := nodePoly_natDegree L
  have hqd : q.natDegree = L.length := by rw [hq, others_natDegree, hlen]; rfl
  have h1 : weightIntegral S w (p * q) = weightIntegral S w (p ^ 2) + weightIntegral S w (p * (q - p)) := by
    unfold weightIntegral
    rw [← integral_add (hint _) (hint _)]
    congr 1
    ext x
    simp only [eval_mul, eval_pow, eval_sub]
    ring
  have h2 : weightIntegral S w (p * (q - p)) = 0 := by
    rcases Nat.eq_zero_or_pos L.length with h0 | h0
    · have e1 : p = 1 := hpm.natDegree_eq_zero.1 (hpd.trans h0)
      have e2 : q = 1 := hqm.natDegree_eq_zero.1 (hqd.trans h0)
      rw [e1, e2]; simp [weightIntegral]
    · have hd : (q - p).natDegree < L.length := by
        have := degree_sub_lt (p := q) (q := p) (by rw [degree_eq_natDegree hqm.ne_zero, degree_eq_natDegree hpm.ne_zero, hqd, hpd]) hqm.ne_zero
          (by rw [hqm.leadingCoeff, hpm.leadingCoeff])
        rw [degree_eq_natDegree hqm.ne_zero, hqd] at this
        by_cases h : q - p = 0
        · rw [h, natDegree_zero]; exact h0
        · rwa [degree_eq_natDegree h, Nat.cast_lt] at this
      have h3 := hex (p * (q - p)) (natDegree_mul_le.trans (by rw [hpd]; omega))
      rw [quad_zero fun r hr => by rw [eval_mul, hp, nodePoly_eval hr, zero_mul]] at h3
      exact (mul_eq_zero.1 h3.symm).resolve_left hc.ne'
  have h3 : 0 < weightIntegral S w (p ^ 2) := hpos _ (pow_ne_zero _ hpm.ne_zero) fun x _ => by rw [eval_pow]; positivity
  have h4 := hex' (p * q) (natDegree_mul_le.trans (by rw [hpd, hqd]; omega))
  have h5 : quad L' (fun x => (p * q).eval x) = (L'.get i).2 * (p.eval (L'.get i).1 * q.eval (L'.get i).1) := by
    rw [quad_fin, Finset.sum_eq_single i]
    · simp
    · intro k _ hk
      rw [eval_mul, hq, others_eval i k hk]; simp
    · intro h; exact absurd (Finset.mem_univ i) h
  rw [h5, h1, h2, add_zero] at h4
  have h6 := (gauss_local hc' hex' hpos i).1
  have h7 : 0 < (L'.get i).2 * (p.eval (L'.get i).1 * q.eval (L'.get i).1) := by rw [h4]; exact mul_pos hc' h3
  exact pos_of_mul_pos_right h7 h6.le

/-- between two consecutive nodes of the larger rule there is a node of the smaller rule -/
theorem node_between (hc : 0 < c) (hc' : 0 < c') (hex : ExactUpTo L (2 * L.length - 1) S w c) (hex' : ExactUpTo L' (2 * L'.length - 1) S w c')
    (hlen : L'.length = L.length + 1) (hpos : PosDef S w) (hint : ∀ p : ℝ[X], IntegrableOn (fun x => p.eval x * w x) S)
    (hs' : (L'.map Prod.fst).Pairwise (· < ·)) (i : Fin L.length) :
    ∃ j : Fin L.length, (L'.get ⟨i, by omega⟩).1 < (L.get j).1 ∧ (L.get j).1 < (L'.get ⟨i + 1, by omega⟩).1 := by
  set i₀ : Fin L'.length := ⟨i, by omega⟩ with hi₀
  set i₁ : Fin L'.length := ⟨i + 1, by omega⟩ with hi₁
  have hmono : ∀ k l : Fin L'.length, k < l → (L'.get k).1 < (L'.get l).1 := by
    intro k l hkl
    have := List.pairwise_iff_getElem.1 hs' k l (by simp) (by simp) hkl
    simpa using this
  have hx : (L'.get i₀).1 < (L'.get i₁).1 := hmono _ _ (by simp [hi₀, hi₁, Fin.lt_def])
  have h0 := nodePoly_sign hc hc' hex hex' hlen hpos hint i₀
  have h1 := nodePoly_sign hc hc' hex hex' hlen hpos hint i₁
  have hne : i₀ ≠ i₁ := by simp [hi₀, hi₁, Fin.ext_iff]
  have e0 : ∀ x, (others L' i₀).eval x = (x - (L'.get i₁).1) * ∏ j ∈ (Finset.univ.erase i₀).erase i₁, (x - (L'.get j).1) := by
    intro x
    rw [others, eval_prod, ← Finset.mul_prod_erase _ _ (Finset.mem_erase.2 ⟨hne.symm, Finset.mem_univ i₁⟩)]
    simp
  have e1 : ∀ x, (others L' i₁).eval x = (x - (L'.get i₀).1) * ∏ j ∈ (Finset.univ.erase i₀).erase i₁, (x - (L'.get j).1) := by
    intro x
    rw [others, eval_prod, ← Finset.mul_prod_erase _ _ (Finset.mem_erase.2 ⟨hne, Finset.mem_univ i₀⟩), Finset.erase_right_comm]
    simp
  have hsame : 0 < (∏ j ∈ (Finset.univ.erase i₀).erase i₁, ((L'.get i₀).1 - (L'.get j).1)) *
      ∏ j ∈ (Finset.univ.erase i₀).erase i₁, ((L'.get i₁).1 - (L'.get j).1) := by
    rw [← Finset.prod_mul_distrib]
    refine Finset.prod_pos fun j hj => ?_
    rw [Finset.mem_erase, Finset.mem_erase] at hj
    have hj0 : (j : ℕ) ≠ i := fun h => hj.2.1 (Fin.ext h)
    have hj1 : (j : ℕ) ≠ i + 1 := fun h => hj.1 (Fin.ext h)
    rcases Nat.lt_or_ge j i with h | h
    · have a := hmono j i₀ h
      have b := hmono j i₁ (by rw [Fin.lt_def, hi₁]; simp only; omega)
      exact mul_pos (by linarith) (by linarith)
    · have a := hmono i₀ j (by rw [Fin.lt_def, hi₀]; simp only; omega)
      have b := hmono i₁ j (by rw [Fin.lt_def, hi₁]; simp only; omega)
      exact mul_pos_of_neg_of_neg (by linarith) (by linarith)
  rw [e0] at h0
  rw [e1] at h1
  set P0 := ∏ j ∈ (Finset.univ.erase i₀).erase i₁, ((L'.get i₀).1 - (L'.get j).1) with hP0
  set P1 := ∏ j ∈ (Finset.univ.erase i₀).erase i₁, ((L'.get i₁).1 - (L'.get j).1) with hP1
  set a := (nodePoly L).eval (L'.get i₀).1 with ha
  set b := (nodePoly L).eval (L'.get i₁).1 with hb
  set d := (L'.get i₁).1 - (L'.get i₀).1 with hd
  have hdpos : 0 < d := by rw [hd]; linarith
  have hab : a * b < 0 := by
    have h2 := mul_pos h0 h1
    have e : a * (((L'.get i₀).1 - (L'.get i₁).1) * P0) * (b * (((L'.get i₁).1 - (L'.get i₀).1) * P1)) = -(a * b) * (d ^ 2 * (P0 * P1)) := by
      rw [hd]; ring
    rw [e] at h2
    have := pos_of_mul_pos_left h2 (by positivity)
    linarith
  have hcont : ContinuousOn (fun x => (nodePoly L).eval x) (Set.Icc (L'.get i₀).1 (L'.get i₁).1) := (nodePoly L).continuous.continuousOn
  have hroot : ∃ x ∈ Set.Ioo (L'.get i₀).1 (L'.get i₁).1, (nodePoly L).eval x = 0 := by
    rcases mul_neg_iff.1 hab with ⟨h2, h3⟩ | ⟨h2, h3⟩
    · obtain ⟨x, hx1, hx2⟩ := intermediate_value_Ioo' hx.le hcont (show (0 : ℝ) ∈ _ from ⟨h3, h2⟩)
      exact ⟨x, hx1, hx2⟩
    · obtain ⟨x, hx1, hx2⟩ := intermediate_value_Ioo hx.le hcont (show (0 : ℝ) ∈ _ from ⟨h2, h3⟩)
      exact ⟨x, hx1, hx2⟩
  obtain ⟨x, hx1, hx2⟩ := hroot
  have hm : x ∈ (nodePoly L).roots := by rw [mem_roots (nodePoly_monic L).ne_zero]; exact hx2
  rw [nodePoly_roots, Multiset.mem_coe, List.mem_map] at hm
  obtain ⟨r, hr, rfl⟩ := hm
  obtain ⟨j, rfl⟩ := List.get_of_mem hr
  exact ⟨j, hx1⟩

/-- **Interlacing** -/
theorem gauss_interlace (hc : 0 < c) (hc' : 0 < c') (hex : ExactUpTo L (2 * L.length - 1) S w c) (hex' : ExactUpTo L' (2 * L'.length - 1) S w c')
    (hlen : L'.length = L.length + 1) (hpos : PosDef S w) (hint : ∀ p : ℝ[X], IntegrableOn (fun x => p.eval x * w x) S)
    (hs : (L.map Prod.fst).Pairwise (· < ·)) (hs' : (L'.map Prod.fst).Pairwise (· < ·)) {i : ℕ} (hi : i < L.length) :
    (L'[i]).1 < (L[i]).1 ∧ (L[i]).1 < (L'[i + 1]).1 := by
  choose φ h1 h2 using node_between hc hc' hex hex' hlen hpos hint hs'
  have hle : ∀ k l : Fin L'.length, k ≤ l → (L'.get k).1 ≤ (L'.get l).1 := by
    intro k l hkl
    rcases hkl.lt_or_eq with h | rfl
    · have := List.pairwise_iff_getElem.1 hs' k l (by simp) (by simp) h
      exact le_of_lt (by simpa using this)
    · exact le_rfl
  have hle' : ∀ k l : Fin L.length, k ≤ l → (L.get k).1 ≤ (L.get l).1 := by
    intro k l hkl
    rcases hkl.lt_or_eq with h | rfl
    · have := List.pairwise_iff_getElem.1 hs k l (by simp) (by simp) h
      exact le_of_lt (by simpa using this)
    · exact le_rfl
  have hmono : StrictMono φ := by
    intro k l hkl
    by_contra hn
    have a := hle' _ _ (not_lt.1 hn)
    have b := h2 k
    have d := h1 l
    have e := hle ⟨k + 1, by omega⟩ ⟨l, by omega⟩ (by rw [Fin.le_def]; simp only; exact hkl)
    linarith
  have hid : φ ⟨i, hi⟩ = ⟨i, hi⟩ := le_antisymm (hmono.apply_le) (hmono.le_apply)
  have a := h1 ⟨i, hi⟩
  have b := h2 ⟨i, hi⟩
  rw [hid] at a b
  exact ⟨a, b⟩

end

end GaussQuad
