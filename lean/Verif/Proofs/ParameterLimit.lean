import Verif.Proofs.ClassicalForm

/-! Limits of rules whose weights are determined by their nodes. -/

namespace GaussQuad
open Polynomial Spec Filter Topology

theorem quad_range (L : List (ℝ × ℝ)) (f : ℝ → ℝ) : quad L f = ∑ k ∈ Finset.range L.length, (L.getD k (0, 0)).2 * f (L.getD k (0, 0)).1 := by
  induction L with
  | nil => simp [quad]
  | cons p L ih =>
    rw [List.length_cons, Finset.sum_range_succ']
    simp only [List.getD_cons_succ, List.getD_cons_zero]
    rw [← ih]
    simp [quad, add_comm]

theorem rootPoly_range (L : List (ℝ × ℝ)) : rootPoly (L.map Prod.fst) = ∏ k ∈ Finset.range L.length, (X - C (L.getD k (0, 0)).1) := by
  induction L with
  | nil => simp [rootPoly]
  | cons p L ih =>
    rw [List.length_cons, Finset.prod_range_succ', List.map_cons, rootPoly_cons, ih]
    simp only [List.getD_cons_succ, List.getD_cons_zero]
    rw [mul_comm]

theorem rootPoly_deriv_range (L : List (ℝ × ℝ)) (x : ℝ) : (derivative (rootPoly (L.map Prod.fst))).eval x =
    ∑ i ∈ Finset.range L.length, ∏ k ∈ (Finset.range L.length).erase i, (x - (L.getD k (0, 0)).1) := by
  rw [rootPoly_range, derivative_prod_finset, eval_finsetSum]
  refine Finset.sum_congr rfl fun i _ => ?_
  simp [eval_prod]

/-- nodes converge, and weights are `c K / (q(x) P'(x)²)` where `P` vanishes at the nodes: then the results, divided by `c`, converge -/
theorem quad_tendsto {ι : Type*} {l : Filter ι} {A : ι → List (ℝ × ℝ)} {B : List (ℝ × ℝ)} {n : ℕ} (hB : B.length = n) (hA : ∀ᶠ s in l, (A s).length = n) {c K : ι → ℝ} {c₀ K₀ : ℝ} {q f : ℝ → ℝ}
    (hx : ∀ k < n, Tendsto (fun s => ((A s).getD k (0, 0)).1) l (𝓝 (B.getD k (0, 0)).1))
    (hw : ∀ᶠ s in l, ∀ p ∈ A s, p.2 * (q p.1 * (derivative (rootPoly ((A s).map Prod.fst))).eval p.1 ^ 2) = c s * K s)
    (hwB : ∀ p ∈ B, p.2 * (q p.1 * (derivative (rootPoly (B.map Prod.fst))).eval p.1 ^ 2) = c₀ * K₀) (hK : Tendsto K l (𝓝 K₀)) (hq : ∀ p ∈ B, ContinuousAt q p.1 ∧ q p.1 ≠ 0)
    (hD : ∀ p ∈ B, (derivative (rootPoly (B.map Prod.fst))).eval p.1 ≠ 0) (hf : ∀ p ∈ B, ContinuousAt f p.1) (hc : ∀ᶠ s in l, c s ≠ 0) (hc₀ : c₀ ≠ 0) :
    Tendsto (fun s => quad (A s) f / c s) l (𝓝 (quad B f / c₀)) := by
  have hmem : ∀ k < n, B.getD k (0, 0) ∈ B := fun k hk => by
    rw [List.getD_eq_getElem _ _ (by omega)]; exact List.getElem_mem _
  have hDt : ∀ k < n, Tendsto (fun s => q ((A s).getD k (0, 0)).1 * (derivative (rootPoly ((A s).map Prod.fst))).eval ((A s).getD k (0, 0)).1 ^ 2) l
      (𝓝 (q (B.getD k (0, 0)).1 * (derivative (rootPoly (B.map Prod.fst))).eval (B.getD k (0, 0)).1 ^ 2)) := by
    intro k hk
    refine ((hq _ (hmem k hk)).1.tendsto.comp (hx k hk)).mul (Tendsto.pow ?_ 2)
    rw [rootPoly_deriv_range, hB]
    refine Tendsto.congr' (f₁ := fun s => ∑ i ∈ Finset.range n, ∏ j ∈ (Finset.range n).erase i, (((A s).getD k (0, 0)).1 - ((A s).getD j (0, 0)).1)) ?_ ?_
    · filter_upwards [hA] with s hs
      rw [rootPoly_deriv_range, hs]
    · refine tendsto_finsetSum _ fun i _ => tendsto_finsetProd _ fun j hj => (hx k hk).sub (hx j ?_)
      exact Finset.mem_range.1 (Finset.mem_of_mem_erase hj)
  have hne : ∀ k < n, q (B.getD k (0, 0)).1 * (derivative (rootPoly (B.map Prod.fst))).eval (B.getD k (0, 0)).1 ^ 2 ≠ 0 := fun k hk =>
    mul_ne_zero (hq _ (hmem k hk)).2 (pow_ne_zero 2 (hD _ (hmem k hk)))
  have key : Tendsto (fun s => ∑ k ∈ Finset.range n, ((A s).getD k (0, 0)).2 / c s * f ((A s).getD k (0, 0)).1) l
      (𝓝 (∑ k ∈ Finset.range n, (B.getD k (0, 0)).2 / c₀ * f (B.getD k (0, 0)).1)) := by
    refine tendsto_finsetSum _ fun k hk => ?_
    have hk := Finset.mem_range.1 hk
    refine Tendsto.mul ?_ ((hf _ (hmem k hk)).tendsto.comp (hx k hk))
    have h0 : (B.getD k (0, 0)).2 / c₀ = K₀ / (q (B.getD k (0, 0)).1 * (derivative (rootPoly (B.map Prod.fst))).eval (B.getD k (0, 0)).1 ^ 2) := by
      rw [div_eq_div_iff hc₀ (hne k hk), hwB _ (hmem k hk), mul_comm]
    rw [h0]
    refine (hK.div (hDt k hk) (hne k hk)).congr' ?_
    filter_upwards [hA, hw, hc, (hDt k hk).eventually_ne (hne k hk)] with s h1 h2 h3 h4
    have hm : (A s).getD k (0, 0) ∈ A s := by rw [List.getD_eq_getElem _ _ (by omega)]; exact List.getElem_mem _
    exact ((div_eq_div_iff h3 h4).2 ((h2 _ hm).trans (mul_comm _ _))).symm
  have hB' : quad B f / c₀ = ∑ k ∈ Finset.range n, (B.getD k (0, 0)).2 / c₀ * f (B.getD k (0, 0)).1 := by
    rw [quad_range, hB, Finset.sum_div]
    exact Finset.sum_congr rfl fun k _ => by ring
  rw [hB']
  refine key.congr' ?_
  filter_upwards [hA] with s hs
  rw [quad_range, hs, Finset.sum_div]
  exact Finset.sum_congr rfl fun k _ => by ring

end GaussQuad
