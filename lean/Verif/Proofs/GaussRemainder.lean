import Verif.Proofs.GaussTheory
import Verif.Proofs.Orthogonal
import Verif.Proofs.GaussConvergence
import Mathlib.LinearAlgebra.Lagrange
import Mathlib.Analysis.Calculus.LocalExtr.Rolle
import Mathlib.Analysis.Calculus.Deriv.Polynomial
import Mathlib.Order.Interval.Set.OrdConnected
import Mathlib.Data.Finset.Sort

/-! The remainder of a Gauss rule for an integrand with a bounded derivative of order `2n`: Hermite interpolation and Rolle's theorem. -/

namespace GaussQuad
open Polynomial Spec MeasureTheory

/-- `F 0, F 1, …, F N` are successive derivatives on `S` -/
def Derivs (F : ℕ → ℝ → ℝ) (N : ℕ) (S : Set ℝ) : Prop := ∀ k < N, ∀ x ∈ S, HasDerivAt (F k) (F (k + 1) x) x

/-- Rolle for a finite set of zeros -/
theorem rolle_finset {S : Set ℝ} (hS : S.OrdConnected) {f f' : ℝ → ℝ} (hf : ∀ x ∈ S, HasDerivAt f (f' x) x) {Z : Finset ℝ} {m : ℕ} (hZ : Z.card = m + 1)
    (hz : ∀ z ∈ Z, z ∈ S ∧ f z = 0) : ∃ Z' : Finset ℝ, Z'.card = m ∧ Disjoint Z' Z ∧ ∀ z ∈ Z', z ∈ S ∧ f' z = 0 := by
  classical
  let e := Z.orderEmbOfFin hZ
  have he : ∀ i, e i ∈ Z := fun i => Finset.orderEmbOfFin_mem Z hZ i
  have key : ∀ i : Fin m, ∃ c, e i.castSucc < c ∧ c < e i.succ ∧ f' c = 0 := fun i => by
    have hlt : e i.castSucc < e i.succ := e.strictMono Fin.castSucc_lt_succ
    have hsub : Set.Icc (e i.castSucc) (e i.succ) ⊆ S := hS.out (hz _ (he _)).1 (hz _ (he _)).1
    obtain ⟨c, hc, h0⟩ := exists_hasDerivAt_eq_zero hlt (fun x hx => (hf x (hsub hx)).continuousAt.continuousWithinAt)
      ((hz _ (he _)).2.trans (hz _ (he _)).2.symm) (fun x hx => hf x (hsub (Set.Ioo_subset_Icc_self hx)))
    exact ⟨c, hc.1, hc.2, h0⟩
  choose c h1 h2 h3 using key
  have hmono : StrictMono c := by
    intro i j hij
    have : i.succ ≤ j.castSucc := by
      rw [Fin.le_def]; simpa using hij
    exact (h2 i).trans_le ((e.monotone this).trans (h1 j).le)
  refine ⟨Finset.univ.image c, by rw [Finset.card_image_of_injective _ hmono.injective, Finset.card_univ, Fintype.card_fin], ?_, ?_⟩
  · rw [Finset.disjoint_left]
    intro z hz' hzZ
    obtain ⟨i, -, rfl⟩ := Finset.mem_image.1 hz'
    have : c i ∈ Set.range e := by
      rw [Finset.range_orderEmbOfFin]; exact hzZ
    obtain ⟨j, hj⟩ := this
    have a1 := h1 i
    have a2 := h2 i
    rw [← hj] at a1 a2
    have b1 := e.lt_iff_lt.1 a1
    have b2 := e.lt_iff_lt.1 a2
    rw [Fin.lt_def] at b1 b2
    simp at b1 b2
    omega
  · intro z hz'
    obtain ⟨i, -, rfl⟩ := Finset.mem_image.1 hz'
    exact ⟨hS.out (hz _ (he _)).1 (hz _ (he _)).1 ⟨(h1 i).le, (h2 i).le⟩, h3 i⟩

theorem rolle_iter {S : Set ℝ} (hS : S.OrdConnected) : ∀ {N : ℕ} {F : ℕ → ℝ → ℝ}, Derivs F N S → ∀ {Z : Finset ℝ}, Z.card = N + 1 →
    (∀ z ∈ Z, z ∈ S ∧ F 0 z = 0) → ∃ ξ ∈ S, F N ξ = 0
  | 0, F, _, Z, hZ, hz => by
    obtain ⟨z, hz'⟩ := Finset.card_pos.1 (by omega : 0 < Z.card)
    exact ⟨z, hz z hz'⟩
  | N + 1, F, hF, Z, hZ, hz => by
    obtain ⟨Z', h1, -, h2⟩ := rolle_finset hS (fun x hx => hF 0 (by omega) x hx) hZ hz
    exact rolle_iter hS (N := N) (F := fun k => F (k + 1)) (fun k hk x hx => hF (k + 1) (by omega) x hx) h1 h2

/-- Hermite interpolation -/
theorem hermite_interpolant (s : Finset ℝ) (f d : ℝ → ℝ) (hs : 0 < s.card) :
    ∃ H : ℝ[X], H.natDegree < 2 * s.card ∧ ∀ x ∈ s, H.eval x = f x ∧ (derivative H).eval x = d x := by
  classical
  have hinj : Set.InjOn (id : ℝ → ℝ) s := Function.injective_id.injOn
  set L1 := Lagrange.interpolate s id f with hL1
  set L2 := Lagrange.interpolate s id (fun x => (d x - (derivative L1).eval x) / (derivative (Lagrange.nodal s id)).eval x) with hL2
  have d1 : L1.degree < s.card := Lagrange.degree_interpolate_lt _ hinj
  have d2 : L2.degree < s.card := Lagrange.degree_interpolate_lt _ hinj
  refine ⟨L1 + Lagrange.nodal s id * L2, ?_, fun x hx => ?_⟩
  · have n1 : L1.natDegree < s.card := natDegree_lt_of_degree_lt' hs d1
    have n2 : L2.natDegree < s.card := natDegree_lt_of_degree_lt' hs d2
    refine lt_of_le_of_lt (natDegree_add_le _ _) (max_lt (by omega) (lt_of_le_of_lt natDegree_mul_le ?_))
    rw [Lagrange.natDegree_nodal]
    omega
  · have e1 : L1.eval x = f x := Lagrange.eval_interpolate_at_node (v := id) f hinj hx
    have e2 : L2.eval x = (d x - (derivative L1).eval x) / (derivative (Lagrange.nodal s id)).eval x :=
      Lagrange.eval_interpolate_at_node (v := id) _ hinj hx
    have e3 : (Lagrange.nodal s id).eval x = 0 := Lagrange.eval_nodal_at_node (v := id) hx
    have e4 : (derivative (Lagrange.nodal s id)).eval x ≠ 0 := by
      have := Lagrange.nodalWeight_ne_zero hinj hx
      rw [Lagrange.nodalWeight_eq_eval_derivative_nodal hx] at this
      exact fun h0 => this (by change ((derivative (Lagrange.nodal s id)).eval (id x))⁻¹ = 0; rw [show eval (id x) (derivative (Lagrange.nodal s id)) = 0 from h0, inv_zero])
    constructor
    · rw [eval_add, eval_mul, e3, e1]; ring
    · rw [derivative_add, derivative_mul, eval_add, eval_add, eval_mul, eval_mul, e3, e2]
      field_simp
      ring
where
  natDegree_lt_of_degree_lt' {p : ℝ[X]} {n : ℕ} (hn : 0 < n) (h : p.degree < n) : p.natDegree < n := by
    by_cases hp : p = 0
    · rw [hp, natDegree_zero]; exact hn
    · exact (natDegree_lt_iff_degree_lt hp).2 h

theorem iterate_derivative_monic {p : ℝ[X]} {N : ℕ} (hp : p.Monic) (hN : p.natDegree = N) (x : ℝ) : (derivative^[N] p).eval x = (Nat.factorial N : ℝ) := by
  have h0 : (derivative^[N] p).natDegree = 0 := by
    have := natDegree_iterate_derivative p N
    omega
  rw [eq_C_of_natDegree_eq_zero h0, eval_C, coeff_iterate_derivative, zero_add, Nat.descFactorial_self]
  have : p.coeff N = 1 := by rw [← hN]; exact hp
  rw [this]; simp

/-- the pointwise remainder of Hermite interpolation -/
theorem hermite_remainder {S : Set ℝ} (hS : S.OrdConnected) {s : Finset ℝ} (hs : 0 < s.card) (hsS : ∀ x ∈ s, x ∈ S) {F : ℕ → ℝ → ℝ}
    (hF : Derivs F (2 * s.card) S) {H : ℝ[X]} (hH : H.natDegree < 2 * s.card) (hHi : ∀ x ∈ s, H.eval x = F 0 x ∧ (derivative H).eval x = F 1 x) {x : ℝ}
    (hx : x ∈ S) : ∃ ξ ∈ S, F 0 x - H.eval x = F (2 * s.card) ξ / (2 * s.card).factorial * ((Lagrange.nodal s id).eval x) ^ 2 := by
  classical
  by_cases hxs : x ∈ s
  · refine ⟨x, hx, ?_⟩
    have h0 : (Lagrange.nodal s id).eval x = 0 := Lagrange.eval_nodal_at_node (v := id) hxs
    rw [(hHi x hxs).1, h0]
    simp
  set W := Lagrange.nodal s (id : ℝ → ℝ) with hW
  have hWx : W.eval x ≠ 0 := by
    rw [hW, Lagrange.eval_nodal, Finset.prod_ne_zero_iff]
    intro z hz h0
    exact hxs (by rw [sub_eq_zero.1 h0]; exact hz)
  obtain ⟨K, hK⟩ : ∃ K, F 0 x - H.eval x = K * (W.eval x) ^ 2 := ⟨(F 0 x - H.eval x) / (W.eval x) ^ 2, by field_simp⟩
  let P : ℝ[X] := H + C K * W ^ 2
  let φ : ℕ → ℝ → ℝ := fun k t => F k t - (derivative^[k] P).eval t
  have hφ : Derivs φ (2 * s.card) S := fun k hk t ht => by
    have h1 := (derivative^[k] P).hasDerivAt t
    rw [← Function.iterate_succ_apply' derivative k P] at h1
    exact (hF k hk t ht).sub h1
  have hmon : (W ^ 2).Monic := Lagrange.nodal_monic.pow 2
  have hdeg : (W ^ 2).natDegree = 2 * s.card := by
    rw [natDegree_pow, hW, Lagrange.natDegree_nodal]
  have hWz : ∀ z ∈ s, W.eval z = 0 := fun z hz => Lagrange.eval_nodal_at_node (v := id) hz
  have hz0 : ∀ z ∈ insert x s, z ∈ S ∧ φ 0 z = 0 := by
    intro z hz
    rcases Finset.mem_insert.1 hz with rfl | hz
    · refine ⟨hx, ?_⟩
      change F 0 z - (H + C K * W ^ 2).eval z = 0
      rw [eval_add, eval_mul, eval_C, eval_pow]
      linarith
    · refine ⟨hsS z hz, ?_⟩
      change F 0 z - (H + C K * W ^ 2).eval z = 0
      rw [eval_add, eval_mul, eval_C, eval_pow, hWz z hz, (hHi z hz).1]
      ring
  obtain ⟨Z', c1, c2, c3⟩ := rolle_finset hS (fun t ht => hφ 0 (by omega) t ht) (Finset.card_insert_of_notMem hxs) hz0
  have hdis : Disjoint Z' s := c2.mono_right (Finset.subset_insert x s)
  have hcard : (Z' ∪ s).card = 2 * s.card - 1 + 1 := by rw [Finset.card_union_of_disjoint hdis, c1]; omega
  obtain ⟨ξ, hξ, h0⟩ := rolle_iter hS (N := 2 * s.card - 1) (F := fun k => φ (k + 1)) (fun k hk t ht => hφ (k + 1) (by omega) t ht) hcard (by
    intro z hz
    rcases Finset.mem_union.1 hz with hz | hz
    · exact c3 z hz
    · refine ⟨hsS z hz, ?_⟩
      change F 1 z - (derivative (H + C K * W ^ 2)).eval z = 0
      rw [derivative_add, derivative_mul, derivative_C, derivative_pow]
      simp [hWz z hz, (hHi z hz).2])
  refine ⟨ξ, hξ, ?_⟩
  have h1 : φ (2 * s.card) ξ = 0 := by
    have : 2 * s.card - 1 + 1 = 2 * s.card := by omega
    rw [← this]; exact h0
  have h2 : (derivative^[2 * s.card] P).eval ξ = K * (2 * s.card).factorial := by
    change (derivative^[2 * s.card] (H + C K * W ^ 2)).eval ξ = _
    rw [iterate_map_add, iterate_derivative_eq_zero hH, zero_add, iterate_derivative_C_mul, eval_mul, eval_C, iterate_derivative_monic hmon hdeg]
  have h3 : F (2 * s.card) ξ = K * (2 * s.card).factorial := by
    have : F (2 * s.card) ξ - (derivative^[2 * s.card] P).eval ξ = 0 := h1
    linarith
  have hf : ((2 * s.card).factorial : ℝ) ≠ 0 := by positivity
  rw [hK, h3]
  field_simp

/-- the nodes as a finite set -/
noncomputable def nodeSet (L : List (ℝ × ℝ)) : Finset ℝ := (L.map Prod.fst).toFinset

/-- the remainder of a Gauss rule -/
theorem gauss_remainder {L : List (ℝ × ℝ)} {S : Set ℝ} {w : ℝ → ℝ} (hS : S.OrdConnected) (hSm : MeasurableSet S) (hL : 0 < L.length)
    {c : ℝ} (hc : 0 < c) (hex : ExactUpTo L (2 * L.length - 1) S w c) (hnd : (L.map Prod.fst).Nodup) (hnode : ∀ q ∈ L, q.1 ∈ S)
    (hw : ∀ x ∈ S, 0 ≤ w x) (hint : ∀ p : ℝ[X], IntegrableOn (fun x => p.eval x * w x) S) {F : ℕ → ℝ → ℝ} (hF : Derivs F (2 * L.length) S) {K : ℝ}
    (hK : ∀ x ∈ S, |F (2 * L.length) x| ≤ K) :
    IntegrableOn (fun x => F 0 x * w x) S ∧
    |quad L (F 0) - c * ∫ x in S, F 0 x * w x| ≤ c * (K / (2 * L.length).factorial * weightIntegral S w ((Lagrange.nodal (nodeSet L) id) ^ 2)) := by
  classical
  have hcard : (nodeSet L).card = L.length := by
    unfold nodeSet
    rw [List.toFinset_card_of_nodup hnd, List.length_map]
  have hmem : ∀ x ∈ nodeSet L, x ∈ S := by
    intro x hx
    unfold nodeSet at hx
    rw [List.mem_toFinset, List.mem_map] at hx
    obtain ⟨q, hq, rfl⟩ := hx
    exact hnode q hq
  obtain ⟨H, hH1, hH2⟩ := hermite_interpolant (nodeSet L) (F 0) (F 1) (by omega)
  set W := Lagrange.nodal (nodeSet L) (id : ℝ → ℝ) with hW
  set N := 2 * L.length with hN
  have hN' : 2 * (nodeSet L).card = N := by rw [hcard]
  have hrem : ∀ x ∈ S, |F 0 x - H.eval x| ≤ K / N.factorial * (W ^ 2).eval x := fun x hx => by
    obtain ⟨ξ, hξ, h⟩ := hermite_remainder hS (by omega) hmem (by rw [hN']; exact hF) hH1 hH2 hx
    rw [h, hN', abs_mul, abs_div, abs_of_nonneg (sq_nonneg (eval x (Lagrange.nodal (nodeSet L) id))), eval_pow, Nat.abs_cast]
    refine mul_le_mul_of_nonneg_right ?_ (sq_nonneg _)
    exact div_le_div_of_nonneg_right (hK ξ hξ) (by positivity)
  have hw1 : IntegrableOn w S := by simpa using hint 1
  have hF0c : ContinuousOn (F 0) S := fun x hx => (hF 0 (by omega) x hx).continuousAt.continuousWithinAt
  have hdi : IntegrableOn (fun x => (F 0 x - H.eval x) * w x) S := by
    refine Integrable.mono' ((hint (W ^ 2)).const_mul (K / N.factorial)) ?_ ?_
    · exact ((hF0c.sub H.continuous.continuousOn).aestronglyMeasurable hSm).mul hw1.aestronglyMeasurable
    · rw [ae_restrict_iff' hSm]
      refine Filter.Eventually.of_forall fun x hx => ?_
      rw [Real.norm_eq_abs, abs_mul, abs_of_nonneg (hw x hx), ← mul_assoc]
      exact mul_le_mul_of_nonneg_right (hrem x hx) (hw x hx)
  have hfi : IntegrableOn (fun x => F 0 x * w x) S := by
    have := hdi.add (hint H)
    refine this.congr ?_
    refine Filter.Eventually.of_forall fun x => ?_
    simp only [Pi.add_apply]; ring
  refine ⟨hfi, ?_⟩
  have e1 : quad L (F 0) = c * ∫ x in S, H.eval x * w x := by
    rw [quad_congr (g := fun x => H.eval x) (fun q hq => ((hH2 q.1 (by
      unfold nodeSet; rw [List.mem_toFinset]; exact List.mem_map_of_mem hq)).1).symm), hex H (by omega)]
    rfl
  rw [e1, abs_sub_comm, ← mul_sub, abs_mul, abs_of_pos hc]
  refine mul_le_mul_of_nonneg_left ?_ hc.le
  rw [← integral_sub hfi (hint H)]
  unfold weightIntegral
  rw [← integral_const_mul]
  refine (abs_integral_le_integral_abs).trans ?_
  refine setIntegral_mono_on ?_ ((hint (W ^ 2)).const_mul _) hSm fun x hx => ?_
  · exact (hfi.sub (hint H)).abs
  · rw [← sub_mul, abs_mul, abs_of_nonneg (hw x hx), ← mul_assoc]
    exact mul_le_mul_of_nonneg_right (hrem x hx) (hw x hx)

/-- the square norms of the monic orthogonal polynomials -/
theorem monicSeq_norm {a b : ℕ → ℝ} {Λ : ℝ[X] →ₗ[ℝ] ℝ} (h : ∀ m, 1 ≤ m → Λ (monicSeq a b m) = 0) :
    ∀ n, Λ (monicSeq a b n ^ 2) = Λ 1 * ∏ k ∈ Finset.range n, b k ^ 2
  | 0 => by simp [monicSeq]
  | n + 1 => by
    have d1 := monicSeq_degree a b n
    have d2 := monicSeq_degree a b (n + 1)
    have e1 : Λ (monicSeq a b (n + 1) ^ 2) = Λ (X * monicSeq a b n * monicSeq a b (n + 1)) := by
      rw [← sub_eq_zero, ← map_sub, show monicSeq a b (n + 1) ^ 2 - X * monicSeq a b n * monicSeq a b (n + 1) =
        (monicSeq a b (n + 1) - X * monicSeq a b n) * monicSeq a b (n + 1) by ring]
      refine functional_orthogonal' h ?_
      have hm : (X * monicSeq a b n).Monic := monic_X.mul d1.1
      have hd : (X * monicSeq a b n).natDegree = n + 1 := by rw [monic_X.natDegree_mul d1.1, d1.2, natDegree_X]; ring
      refine lt_of_lt_of_eq (degree_sub_lt_left ?_ d2.1.ne_zero ?_) ?_
      · rw [degree_eq_natDegree d2.1.ne_zero, degree_eq_natDegree hm.ne_zero, d2.2, hd]
      · rw [d2.1.leadingCoeff, hm.leadingCoeff]
      · rw [degree_eq_natDegree d2.1.ne_zero, d2.2]
    have e2 : Λ (X * monicSeq a b n * monicSeq a b (n + 1)) = b n ^ 2 * Λ (monicSeq a b n ^ 2) := by
      have : X * monicSeq a b n * monicSeq a b (n + 1) = monicSeq a b n * monicSeq a b (n + 2) + a (n + 1) • (monicSeq a b n * monicSeq a b (n + 1)) +
          (b n ^ 2) • (monicSeq a b n ^ 2) := by
        rw [show X * monicSeq a b n * monicSeq a b (n + 1) = monicSeq a b n * (X * monicSeq a b (n + 1)) by ring, monicSeq_succ, smul_eq_C_mul, smul_eq_C_mul]
        ring
      rw [this, map_add, map_add, map_smul, map_smul, functional_orthogonal' h, functional_orthogonal' h]
      · simp
      · rw [degree_eq_natDegree d1.1.ne_zero, d1.2]; exact_mod_cast Nat.lt_succ_self n
      · rw [degree_eq_natDegree d1.1.ne_zero, d1.2]; exact_mod_cast (by omega : n < n + 2)
    rw [e1, e2, monicSeq_norm h n, Finset.prod_range_succ]
    ring

/-- the nodal polynomial of a Gauss rule is the orthogonal polynomial -/
theorem nodal_eq_monicSeq {L : List (ℝ × ℝ)} {S : Set ℝ} {w : ℝ → ℝ} (hL : 0 < L.length) {c : ℝ} (hc : 0 < c) (hex : ExactUpTo L (2 * L.length - 1) S w c)
    (hnd : (L.map Prod.fst).Nodup) (hpos : PosDef S w) (hint : ∀ p : ℝ[X], IntegrableOn (fun x => p.eval x * w x) S) {a b : ℕ → ℝ}
    (h : ∀ m, 1 ≤ m → weightFunctional S w hint (monicSeq a b m) = 0) : Lagrange.nodal (nodeSet L) id = monicSeq a b L.length := by
  classical
  have hcard : (nodeSet L).card = L.length := by
    unfold nodeSet
    rw [List.toFinset_card_of_nodup hnd, List.length_map]
  set W := Lagrange.nodal (nodeSet L) (id : ℝ → ℝ) with hW
  have hWm : W.Monic := Lagrange.nodal_monic
  have hWd : W.natDegree = L.length := by rw [hW, Lagrange.natDegree_nodal, hcard]
  have d := monicSeq_degree a b L.length
  by_contra hne
  have hD : W - monicSeq a b L.length ≠ 0 := sub_ne_zero.2 hne
  have hdeg : (W - monicSeq a b L.length).degree < L.length := by
    refine lt_of_lt_of_eq (degree_sub_lt_left ?_ hWm.ne_zero ?_) ?_
    · rw [degree_eq_natDegree hWm.ne_zero, degree_eq_natDegree d.1.ne_zero, hWd, d.2]
    · rw [hWm.leadingCoeff, d.1.leadingCoeff]
    · rw [degree_eq_natDegree hWm.ne_zero, hWd]
  have hnat : (W - monicSeq a b L.length).natDegree < L.length := (natDegree_lt_iff_degree_lt hD).2 hdeg
  have h1 : weightFunctional S w hint ((W - monicSeq a b L.length) * monicSeq a b L.length) = 0 := functional_orthogonal' h hdeg
  have h2 : weightFunctional S w hint ((W - monicSeq a b L.length) * W) = 0 := by
    have := hex ((W - monicSeq a b L.length) * W) (natDegree_mul_le.trans (by omega))
    rw [weightFunctional_apply]
    refine (mul_eq_zero.1 (this.symm.trans ?_)).resolve_left hc.ne'
    unfold quad
    apply List.sum_eq_zero
    intro z hz
    obtain ⟨q, hq, rfl⟩ := List.mem_map.1 hz
    have : W.eval q.1 = 0 := Lagrange.eval_nodal_at_node (v := id) (by
      unfold nodeSet; rw [List.mem_toFinset]; exact List.mem_map_of_mem hq)
    simp only [eval_mul, this]; ring
  have h3 : weightFunctional S w hint ((W - monicSeq a b L.length) ^ 2) = 0 := by
    rw [show (W - monicSeq a b L.length) ^ 2 = (W - monicSeq a b L.length) * W - (W - monicSeq a b L.length) * monicSeq a b L.length by ring, map_sub, h1, h2]
    ring
  have h4 := hpos ((W - monicSeq a b L.length) ^ 2) (pow_ne_zero _ hD) fun x _ => by rw [eval_pow]; positivity
  rw [← weightFunctional_apply hint, h3] at h4
  exact lt_irrefl _ h4

/-- the integral of the squared nodal polynomial -/
theorem nodal_norm {L : List (ℝ × ℝ)} {S : Set ℝ} {w : ℝ → ℝ} (hL : 0 < L.length) {c : ℝ} (hc : 0 < c) (hex : ExactUpTo L (2 * L.length - 1) S w c)
    (hpos : PosDef S w) (hint : ∀ p : ℝ[X], IntegrableOn (fun x => p.eval x * w x) S) {a b : ℕ → ℝ}
    (h : ∀ m, 1 ≤ m → weightFunctional S w hint (monicSeq a b m) = 0) :
    weightIntegral S w ((Lagrange.nodal (nodeSet L) id) ^ 2) = (∫ x in S, w x) * ∏ k ∈ Finset.range L.length, b k ^ 2 := by
  have hnd := gauss_nodes_nodup hc hex hpos
  rw [nodal_eq_monicSeq hL hc hex hnd hpos hint h, ← weightFunctional_apply hint, monicSeq_norm h]
  congr 1
  rw [weightFunctional_apply, weightIntegral]; simp

/-- a monic polynomial of degree `2n` is integrated with exactly this error -/
theorem gauss_monic_error {L : List (ℝ × ℝ)} {S : Set ℝ} {w : ℝ → ℝ} (hL : 0 < L.length) {c : ℝ} (hex : ExactUpTo L (2 * L.length - 1) S w c)
    (hnd : (L.map Prod.fst).Nodup) (hint : ∀ p : ℝ[X], IntegrableOn (fun x => p.eval x * w x) S) {p : ℝ[X]} (hp : p.Monic) (hd : p.natDegree = 2 * L.length) :
    c * weightIntegral S w p - quad L (fun x => p.eval x) = c * weightIntegral S w ((Lagrange.nodal (nodeSet L) id) ^ 2) := by
  classical
  have hcard : (nodeSet L).card = L.length := by
    unfold nodeSet
    rw [List.toFinset_card_of_nodup hnd, List.length_map]
  set W := Lagrange.nodal (nodeSet L) (id : ℝ → ℝ) with hW
  have hWm : (W ^ 2).Monic := Lagrange.nodal_monic.pow 2
  have hWd : (W ^ 2).natDegree = 2 * L.length := by rw [natDegree_pow, hW, Lagrange.natDegree_nodal, hcard]
  have hdeg : (p - W ^ 2).natDegree ≤ 2 * L.length - 1 := by
    by_cases h0 : p - W ^ 2 = 0
    · rw [h0, natDegree_zero]; omega
    · have : (p - W ^ 2).degree < (2 * L.length : ℕ) := by
        refine lt_of_lt_of_eq (degree_sub_lt_left ?_ hp.ne_zero ?_) ?_
        · rw [degree_eq_natDegree hp.ne_zero, degree_eq_natDegree hWm.ne_zero, hd, hWd]
        · rw [hp.leadingCoeff, hWm.leadingCoeff]
        · rw [degree_eq_natDegree hp.ne_zero, hd]
      have := (natDegree_lt_iff_degree_lt h0).2 this
      omega
  have h1 := hex _ hdeg
  have h2 : quad L (fun x => (p - W ^ 2).eval x) = quad L (fun x => p.eval x) := by
    refine quad_congr fun q hq => ?_
    have : W.eval q.1 = 0 := Lagrange.eval_nodal_at_node (v := id) (by
      unfold nodeSet; rw [List.mem_toFinset]; exact List.mem_map_of_mem hq)
    rw [eval_sub, eval_pow, this]; ring
  rw [h2] at h1
  rw [h1, ← weightFunctional_apply hint, ← weightFunctional_apply hint, ← weightFunctional_apply hint, map_sub]
  ring

end GaussQuad
