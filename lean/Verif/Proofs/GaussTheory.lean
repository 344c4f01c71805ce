import Verif.Spec.Gauss
import Mathlib.Algebra.Polynomial.BigOperators
import Mathlib.Algebra.Polynomial.Roots
import Mathlib.MeasureTheory.Integral.Bochner.Basic
import Mathlib.Tactic.Linarith
import Mathlib.Tactic.Positivity

/-!
Consequences of exactness to degree `2n-1` with `n` nodes: positive weights, distinct interior nodes, sharpness.
-/

namespace GaussQuad
open Polynomial Spec MeasureTheory

/-- the weight functional is positive definite on the support -/
def PosDef (S : Set ℝ) (w : ℝ → ℝ) : Prop :=
  ∀ p : ℝ[X], p ≠ 0 → (∀ x ∈ S, 0 ≤ p.eval x) → 0 < weightIntegral S w p

theorem quad_fin (L : List (ℝ × ℝ)) (f : ℝ → ℝ) : quad L f = ∑ i : Fin L.length, (L.get i).2 * f (L.get i).1 := by
  unfold quad
  conv_lhs => rw [← List.ofFn_get L]
  rw [List.map_ofFn, List.sum_ofFn]
  rfl

/-- positivity on open supports -/
theorem posDef_of_pos {S : Set ℝ} {w : ℝ → ℝ} (hS : IsOpen S) (hne : S.Nonempty) (hw : ∀ x ∈ S, 0 < w x)
    (hint : ∀ p : ℝ[X], IntegrableOn (fun x => p.eval x * w x) S) : PosDef S w := by
  intro p hp hnn
  unfold weightIntegral
  rw [setIntegral_pos_iff_support_of_nonneg_ae]
  · have hfin : (p.roots.toFinset : Set ℝ).Finite := Finset.finite_toSet _
    have hsub : S \ (p.roots.toFinset : Set ℝ) ⊆ Function.support (fun x => p.eval x * w x) ∩ S := by
      intro x hx
      refine ⟨?_, hx.1⟩
      rw [Function.mem_support]
      refine mul_ne_zero ?_ (hw x hx.1).ne'
      intro h0
      apply hx.2
      simp [hp, h0]
    refine lt_of_lt_of_le ?_ (measure_mono hsub)
    rw [measure_sdiff_null (hfin.measure_zero _)]
    exact hS.measure_pos _ hne
  · rw [Filter.EventuallyLE, ae_restrict_iff' hS.measurableSet]
    exact Filter.Eventually.of_forall fun x hx => mul_nonneg (hnn x hx) (hw x hx).le
  · exact hint p

section
variable {L : List (ℝ × ℝ)} {S : Set ℝ} {w : ℝ → ℝ} {c : ℝ}

/-- `∏_{j≠i} (X - x_j)` -/
noncomputable def others (L : List (ℝ × ℝ)) (i : Fin L.length) : ℝ[X] :=
  ∏ j ∈ Finset.univ.erase i, (X - C (L.get j).1)

theorem others_monic (i : Fin L.length) : (others L i).Monic := monic_prod_of_monic _ _ fun j _ => monic_X_sub_C _

theorem others_natDegree (i : Fin L.length) : (others L i).natDegree = L.length - 1 := by
  unfold others
  rw [natDegree_prod_of_monic _ _ fun j _ => monic_X_sub_C _]
  simp

theorem others_eval (i k : Fin L.length) (h : k ≠ i) : (others L i).eval (L.get k).1 = 0 := by
  unfold others
  rw [eval_prod]
  exact Finset.prod_eq_zero (Finset.mem_erase.2 ⟨h, Finset.mem_univ k⟩) (by simp)

theorem quad_others (i : Fin L.length) (q : ℝ[X]) :
    quad L (fun x => ((others L i) ^ 2 * q).eval x) =
      (L.get i).2 * ((others L i).eval (L.get i).1 ^ 2 * q.eval (L.get i).1) := by
  rw [quad_fin, Finset.sum_eq_single i]
  · simp
  · intro k _ hk
    rw [eval_mul, eval_pow, others_eval i k hk]; simp
  · intro h; exact absurd (Finset.mem_univ i) h

theorem sq_ne_zero_of_monic {p : ℝ[X]} (h : p.Monic) : p ^ 2 ≠ 0 := pow_ne_zero _ h.ne_zero

theorem gauss_local (hc : 0 < c) (hex : ExactUpTo L (2 * L.length - 1) S w c) (hpos : PosDef S w) (i : Fin L.length) :
    0 < (L.get i).2 ∧ (others L i).eval (L.get i).1 ≠ 0 := by
  have hn : 0 < L.length := lt_of_le_of_lt (Nat.zero_le _) i.2
  have h1 := hex ((others L i) ^ 2 * 1) (by
    rw [mul_one, natDegree_pow, others_natDegree]; omega)
  rw [quad_others, mul_one] at h1
  have h2 := hpos ((others L i) ^ 2) (sq_ne_zero_of_monic (others_monic i)) (fun x _ => by rw [eval_pow]; positivity)
  have h3 := mul_pos hc h2
  rw [← h1, eval_one, mul_one] at h3
  constructor
  · by_contra h
    have := mul_nonpos_of_nonpos_of_nonneg (not_lt.1 h) (sq_nonneg ((others L i).eval (L.get i).1))
    linarith
  · intro h; rw [h] at h3; simp at h3

/-- all weights of a rule that is exact to degree `2n-1` are positive -/
theorem gauss_weights_pos (hc : 0 < c) (hex : ExactUpTo L (2 * L.length - 1) S w c) (hpos : PosDef S w) :
    ∀ p ∈ L, 0 < p.2 := by
  intro p hp
  obtain ⟨i, hi⟩ := List.get_of_mem hp
  rw [← hi]; exact (gauss_local hc hex hpos i).1

/-- the nodes are pairwise distinct -/
theorem gauss_nodes_nodup (hc : 0 < c) (hex : ExactUpTo L (2 * L.length - 1) S w c) (hpos : PosDef S w) :
    (L.map Prod.fst).Nodup := by
  rw [List.nodup_iff_injective_get]
  intro i j hij
  by_contra hne
  have hi : i.1 < L.length := by simpa using i.2
  have hj : j.1 < L.length := by simpa using j.2
  have hne' : (⟨j.1, hj⟩ : Fin L.length) ≠ ⟨i.1, hi⟩ := by
    intro h; apply hne; ext; simpa using (congrArg Fin.val h).symm
  have h := (gauss_local hc hex hpos ⟨i.1, hi⟩).2
  apply h
  have e : (L.get ⟨i.1, hi⟩).1 = (L.get ⟨j.1, hj⟩).1 := by simpa using hij
  rw [e]
  exact others_eval _ _ hne'

theorem gauss_linear_pos (hc : 0 < c) (hex : ExactUpTo L (2 * L.length - 1) S w c) (hpos : PosDef S w) (q : ℝ[X])
    (hq : q ≠ 0) (hdeg : q.natDegree ≤ 1) (hS : ∀ x ∈ S, 0 ≤ q.eval x) : ∀ p ∈ L, 0 < q.eval p.1 := by
  intro p hp
  obtain ⟨i, hi⟩ := List.get_of_mem hp
  rw [← hi]
  have hn : 0 < L.length := lt_of_le_of_lt (Nat.zero_le _) i.2
  have h1 := hex ((others L i) ^ 2 * q) (by
    refine natDegree_mul_le.trans ?_
    rw [natDegree_pow, others_natDegree]; omega)
  rw [quad_others] at h1
  have h2 := hpos ((others L i) ^ 2 * q) (mul_ne_zero (sq_ne_zero_of_monic (others_monic i)) hq)
    (fun x hx => by rw [eval_mul, eval_pow]; exact mul_nonneg (by positivity) (hS x hx))
  have h3 := mul_pos hc h2
  rw [← h1] at h3
  have hw := (gauss_local hc hex hpos i).1
  by_contra h
  have h4 := mul_nonpos_of_nonneg_of_nonpos (sq_nonneg ((others L i).eval (L.get i).1)) (not_lt.1 h)
  have h5 := mul_nonpos_of_nonneg_of_nonpos hw.le h4
  linarith

/-- nodes lie strictly above every lower bound of the support -/
theorem gauss_nodes_gt (hc : 0 < c) (hex : ExactUpTo L (2 * L.length - 1) S w c) (hpos : PosDef S w) {a : ℝ}
    (ha : ∀ x ∈ S, a ≤ x) : ∀ p ∈ L, a < p.1 := by
  intro p hp
  have := gauss_linear_pos hc hex hpos (X - C a) (X_sub_C_ne_zero a) (natDegree_X_sub_C a).le
    (fun x hx => by simpa using ha x hx) p hp
  simpa using this

/-- nodes lie strictly below every upper bound of the support -/
theorem gauss_nodes_lt (hc : 0 < c) (hex : ExactUpTo L (2 * L.length - 1) S w c) (hpos : PosDef S w) {b : ℝ}
    (hb : ∀ x ∈ S, x ≤ b) : ∀ p ∈ L, p.1 < b := by
  intro p hp
  have := gauss_linear_pos hc hex hpos (-(X - C b)) (neg_ne_zero.2 (X_sub_C_ne_zero b)) (by rw [natDegree_neg]; exact (natDegree_X_sub_C b).le)
    (fun x hx => by simpa using hb x hx) p hp
  simpa using this

/-- degree `2n-1` is sharp: the square of the node polynomial is integrated to 0 -/
theorem gauss_sharp (L : List (ℝ × ℝ)) (hpos : PosDef S w) :
    ∃ p : ℝ[X], p.natDegree = 2 * L.length ∧ p.Monic ∧ quad L (fun x => p.eval x) = 0 ∧ 0 < weightIntegral S w p := by
  set P : ℝ[X] := ∏ j : Fin L.length, (X - C (L.get j).1) with hP
  have hm : P.Monic := monic_prod_of_monic _ _ fun j _ => monic_X_sub_C _
  refine ⟨P ^ 2, ?_, hm.pow 2, ?_, ?_⟩
  · rw [natDegree_pow, hP, natDegree_prod_of_monic _ _ fun j _ => monic_X_sub_C _]; simp
  · rw [quad_fin]
    apply Finset.sum_eq_zero
    intro k _
    have : P.eval (L.get k).1 = 0 := by
      rw [hP, eval_prod]; exact Finset.prod_eq_zero (Finset.mem_univ k) (by simp)
    rw [eval_pow, this]; simp
  · exact hpos _ (sq_ne_zero_of_monic hm) fun x _ => by rw [eval_pow]; positivity

/-- the weights sum to the mass of the weight function -/
theorem gauss_mass (hex : ExactUpTo L (2 * L.length - 1) S w c) : (L.map Prod.snd).sum = c * ∫ x in S, w x := by
  have := hex 1 (by simp)
  simpa [quad, weightIntegral] using this

end

end GaussQuad
