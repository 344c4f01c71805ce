import Verif.Proofs.ParameterLimit
import Verif.Proofs.GaussUnique
import Verif.Proofs.GolubRules
import Mathlib.MeasureTheory.Integral.DominatedConvergence
import Mathlib.Topology.Order.Compact

/-!
# Limits of Gauss rules by compactness

If the moments of a family of rules with bounded nodes and weights converge to the moments of a weight function, the rules converge to the Gauss rule of that weight function:
every limit point of the family is a Gauss rule, and there is only one. Unlike `quad_tendsto` this uses no formula for the nodes or weights, so the limit may be a point where
the three-term recurrence of the Jacobi polynomials is singular (`α + β = -1`).
-/

namespace GaussQuad
open Polynomial Spec MeasureTheory Filter Topology

theorem gauss_tendsto_compact {ι : Type*} {l : Filter ι} {n : ℕ} {u : ι → Fin n → ℝ × ℝ} {K : Set (Fin n → ℝ × ℝ)} (hK : IsCompact K) (hu : ∀ᶠ s in l, u s ∈ K) {S : Set ℝ} {w : ℝ → ℝ}
    (hI : ∀ p : ℝ[X], p.natDegree ≤ 2 * n - 1 → Tendsto (fun s => ∑ i, (u s i).2 * p.eval (u s i).1) l (𝓝 (weightIntegral S w p))) (hpos : PosDef S w) {B : List (ℝ × ℝ)} {c : ℝ}
    (hc : 0 < c) (hB : B.length = n) (hex : ExactUpTo B (2 * n - 1) S w c) {f : ℝ → ℝ} (hf : ∀ p ∈ B, ContinuousAt f p.1) :
    Tendsto (fun s => ∑ i, (u s i).2 * f (u s i).1) l (𝓝 (quad B f / c)) := by
  rw [tendsto_iff_ultrafilter]
  intro g hg
  obtain ⟨x, -, hx⟩ := hK.ultrafilter_le_nhds (g.map u) (le_principal_iff.2 (by
    have : ∀ᶠ s in (g : Filter ι), u s ∈ K := hg hu
    exact this))
  have hx' : Tendsto u g (𝓝 x) := hx
  have h1 : ∀ i, Tendsto (fun s => (u s i).1) g (𝓝 (x i).1) := fun i => (continuous_fst.tendsto _).comp ((tendsto_pi_nhds.1 hx') i)
  have h2 : ∀ i, Tendsto (fun s => (u s i).2) g (𝓝 (x i).2) := fun i => (continuous_snd.tendsto _).comp ((tendsto_pi_nhds.1 hx') i)
  have hq : ∀ f : ℝ → ℝ, quad (List.ofFn x) f = ∑ i, (x i).2 * f (x i).1 := fun f => by simp [quad, List.map_ofFn, List.sum_ofFn]
  have hexx : ExactUpTo (List.ofFn x) (2 * n - 1) S w 1 := by
    intro p hp
    rw [one_mul, hq]
    refine tendsto_nhds_unique (tendsto_finsetSum _ fun i _ => (h2 i).mul ((p.continuous.tendsto _).comp (h1 i))) ((hI p hp).mono_left hg)
  have hlen : (List.ofFn x).length = n := by simp
  have hperm := gauss_unique hc one_pos (hlen.trans hB.symm) (by rwa [hB]) (by rwa [hB]) hpos
  have hval : quad B f / c = ∑ i, (x i).2 * f (x i).1 := by
    rw [← hq, ← quad_perm hperm f]
    simp only [quad, List.map_map]
    have : (B.map ((fun p : ℝ × ℝ => p.2 * f p.1) ∘ fun p => (p.1, 1 / c * p.2))) = B.map fun p => 1 / c * (p.2 * f p.1) := by
      refine List.map_congr_left fun p _ => ?_
      simp only [Function.comp]
      ring
    rw [this, List.sum_map_mul_left]
    ring
  rw [hval]
  refine tendsto_finsetSum _ fun i _ => (h2 i).mul (Tendsto.comp ?_ (h1 i))
  have hm : x i ∈ B.map fun p => (p.1, 1 / c * p.2) := hperm.mem_iff.2 (by rw [List.mem_ofFn]; exact ⟨i, rfl⟩)
  obtain ⟨p, hp, he⟩ := List.mem_map.1 hm
  have := hf p hp
  rw [← he]
  exact this

/-- a limit point exists, so the limit weight has a Gauss rule -/
theorem gauss_exists_compact {ι : Type*} {l : Filter ι} [l.NeBot] {n : ℕ} {u : ι → Fin n → ℝ × ℝ} {K : Set (Fin n → ℝ × ℝ)} (hK : IsCompact K) (hu : ∀ᶠ s in l, u s ∈ K) {S : Set ℝ}
    {w : ℝ → ℝ} (hI : ∀ p : ℝ[X], p.natDegree ≤ 2 * n - 1 → Tendsto (fun s => ∑ i, (u s i).2 * p.eval (u s i).1) l (𝓝 (weightIntegral S w p))) :
    ∃ B : List (ℝ × ℝ), B.length = n ∧ ExactUpTo B (2 * n - 1) S w 1 := by
  obtain ⟨g, hg⟩ := Ultrafilter.exists_le l
  obtain ⟨x, -, hx⟩ := hK.ultrafilter_le_nhds (g.map u) (le_principal_iff.2 (by
    have : ∀ᶠ s in (g : Filter ι), u s ∈ K := hg hu
    exact this))
  have hx' : Tendsto u g (𝓝 x) := hx
  have h1 : ∀ i, Tendsto (fun s => (u s i).1) g (𝓝 (x i).1) := fun i => (continuous_fst.tendsto _).comp ((tendsto_pi_nhds.1 hx') i)
  have h2 : ∀ i, Tendsto (fun s => (u s i).2) g (𝓝 (x i).2) := fun i => (continuous_snd.tendsto _).comp ((tendsto_pi_nhds.1 hx') i)
  refine ⟨List.ofFn x, by simp, fun p hp => ?_⟩
  rw [one_mul]
  have hq : quad (List.ofFn x) (fun y => p.eval y) = ∑ i, (x i).2 * p.eval (x i).1 := by simp [quad, List.map_ofFn, List.sum_ofFn]
  rw [hq]
  exact tendsto_nhds_unique (tendsto_finsetSum _ fun i _ => (h2 i).mul ((p.continuous.tendsto _).comp (h1 i))) ((hI p hp).mono_left hg)

/-- the Jacobi moments depend continuously on the parameters -/
theorem jacobi_moment_tendsto {α β : ℝ} (hα : -1 < α) (hβ : -1 < β) (p : ℝ[X]) :
    Tendsto (fun θ : ℝ × ℝ => weightIntegral (Set.Ioo (-1) 1) (jacW θ.1 θ.2) p) (𝓝 (α, β)) (𝓝 (weightIntegral (Set.Ioo (-1) 1) (jacW α β) p)) := by
  set a := (α - 1) / 2 with ha
  set b := (β - 1) / 2 with hb
  have ha1 : -1 < a := by rw [ha]; linarith
  have hb1 : -1 < b := by rw [hb]; linarith
  have c1 : Tendsto (fun s : ℝ × ℝ => s.1) (𝓝 (α, β)) (𝓝 α) := continuous_fst.tendsto _
  have c2 : Tendsto (fun s : ℝ × ℝ => s.2) (𝓝 (α, β)) (𝓝 β) := continuous_snd.tendsto _
  have e1 : ∀ᶠ s : ℝ × ℝ in 𝓝 (α, β), s.1 ∈ Set.Icc a (α + 1) := c1.eventually (Icc_mem_nhds (by rw [ha]; linarith) (by linarith))
  have e2 : ∀ᶠ s : ℝ × ℝ in 𝓝 (α, β), s.2 ∈ Set.Icc b (β + 1) := c2.eventually (Icc_mem_nhds (by rw [hb]; linarith) (by linarith))
  have key : ∀ {y e d t : ℝ}, 0 < y → y < 2 → d ∈ Set.Icc e t → y ^ d ≤ y ^ e * 2 ^ (t - e) := by
    intro y e d t hy hy2 hd
    rw [show d = e + (d - e) by ring, Real.rpow_add hy]
    refine mul_le_mul_of_nonneg_left ?_ (Real.rpow_nonneg hy.le _)
    exact (Real.rpow_le_rpow hy.le hy2.le (by linarith [hd.1])).trans (Real.rpow_le_rpow_of_exponent_le (by norm_num) (by linarith [hd.2]))
  have hpw : ∀ {x : ℝ}, x ∈ Set.Ioo (-1 : ℝ) 1 → 0 < 1 - x ∧ 1 - x < 2 ∧ 0 < 1 + x ∧ 1 + x < 2 := fun {x} hx => ⟨by linarith [hx.2], by linarith [hx.1], by linarith [hx.1], by linarith [hx.2]⟩
  refine tendsto_integral_filter_of_dominated_convergence (fun x => |p.eval x| * (jacW a b x * (2 ^ (α + 1 - a) * 2 ^ (β + 1 - b)))) ?_ ?_ ?_ ?_
  · filter_upwards [e1, e2] with s h1 h2
    exact (integrable_jacobi (by linarith [h1.1]) (by linarith [h2.1]) p).aestronglyMeasurable
  · filter_upwards [e1, e2] with s h1 h2
    refine (ae_restrict_iff' measurableSet_Ioo).2 (Eventually.of_forall fun x hx => ?_)
    obtain ⟨x1, x2, x3, x4⟩ := hpw hx
    rw [Real.norm_eq_abs, abs_mul]
    refine mul_le_mul_of_nonneg_left ?_ (abs_nonneg _)
    rw [jacW, abs_of_pos (mul_pos (Real.rpow_pos_of_pos x1 _) (Real.rpow_pos_of_pos x3 _))]
    refine (mul_le_mul (key x1 x2 h1) (key x3 x4 h2) (Real.rpow_nonneg x3.le _) (by positivity)).trans (le_of_eq ?_)
    rw [jacW]; ring
  · have := (integrable_jacobi ha1 hb1 p).norm.mul_const ((2 : ℝ) ^ (α + 1 - a) * 2 ^ (β + 1 - b))
    refine this.congr ((ae_restrict_iff' measurableSet_Ioo).2 (Eventually.of_forall fun x hx => ?_))
    obtain ⟨x1, x2, x3, x4⟩ := hpw hx
    beta_reduce
    rw [Real.norm_eq_abs, abs_mul, abs_of_pos (show 0 < jacW a b x from mul_pos (Real.rpow_pos_of_pos x1 _) (Real.rpow_pos_of_pos x3 _))]
    ring
  · refine (ae_restrict_iff' measurableSet_Ioo).2 (Eventually.of_forall fun x hx => ?_)
    obtain ⟨x1, x2, x3, x4⟩ := hpw hx
    refine tendsto_const_nhds.mul (Tendsto.mul ?_ ?_)
    · exact tendsto_const_nhds.rpow c1 (Or.inl x1.ne')
    · exact tendsto_const_nhds.rpow c2 (Or.inl x3.ne')

section
variable {ι : Type*} {l : Filter ι} {n : ℕ} {θ : ι → ℝ × ℝ} {A : ι → List (ℝ × ℝ)} {c : ι → ℝ} {α β : ℝ} (hα : -1 < α) (hβ : -1 < β) (hθ : Tendsto θ l (𝓝 (α, β)))
  (hc : ∀ᶠ s in l, 0 < c s) (hA : ∀ᶠ s in l, (A s).length = n ∧ ExactUpTo (A s) (2 * n - 1) (Set.Ioo (-1) 1) (jacW (θ s).1 (θ s).2) (c s))

/-- nodes and weights of the normalised rule -/
noncomputable def normPairs (n : ℕ) (L : List (ℝ × ℝ)) (c : ℝ) (i : Fin n) : ℝ × ℝ := ((L.getD i (0, 0)).1, (L.getD i (0, 0)).2 / c)

theorem normPairs_sum {L : List (ℝ × ℝ)} (hs : L.length = n) (c : ℝ) (g : ℝ → ℝ) : ∑ i, (normPairs n L c i).2 * g (normPairs n L c i).1 = quad L g / c := by
  subst hs
  rw [quad_fin, Finset.sum_div]
  refine Finset.sum_congr rfl fun i _ => ?_
  simp only [normPairs, List.getD_eq_getElem _ _ i.2, List.get_eq_getElem]
  ring

include hα hβ hθ hc hA

theorem jacobi_normPairs : ∃ M : ℝ, (∀ᶠ s in l, normPairs n (A s) (c s) ∈ Set.univ.pi fun _ : Fin n => Set.Icc (-1 : ℝ) 1 ×ˢ Set.Icc 0 M) ∧
    ∀ p : ℝ[X], p.natDegree ≤ 2 * n - 1 →
      Tendsto (fun s => ∑ i, (normPairs n (A s) (c s) i).2 * p.eval (normPairs n (A s) (c s) i).1) l (𝓝 (weightIntegral (Set.Ioo (-1) 1) (jacW α β) p)) := by
  have e1 : ∀ᶠ s in l, -1 < (θ s).1 := ((continuous_fst.tendsto _).comp hθ).eventually (eventually_gt_nhds hα)
  have e2 : ∀ᶠ s in l, -1 < (θ s).2 := ((continuous_snd.tendsto _).comp hθ).eventually (eventually_gt_nhds hβ)
  set m := weightIntegral (Set.Ioo (-1) 1) (jacW α β) 1
  have e3 : ∀ᶠ s in l, weightIntegral (Set.Ioo (-1) 1) (jacW (θ s).1 (θ s).2) 1 < m + 1 := ((jacobi_moment_tendsto hα hβ 1).comp hθ).eventually (eventually_lt_nhds (by simp [m]))
  refine ⟨m + 1, ?_, fun p hp => ?_⟩
  · filter_upwards [e1, e2, e3, hc, hA] with s h1 h2 h3 h4 h5 i _
    have hi : (i : ℕ) < (A s).length := by rw [h5.1]; exact i.2
    have hex' : ExactUpTo (A s) (2 * (A s).length - 1) (Set.Ioo (-1) 1) (jacW (θ s).1 (θ s).2) (c s) := by rw [h5.1]; exact h5.2
    have hm : (A s)[(i : ℕ)] ∈ A s := List.getElem_mem hi
    simp only [normPairs, List.getD_eq_getElem _ _ hi]
    refine ⟨⟨(gauss_nodes_gt h4 hex' (posDef_jacobi h1 h2) (fun _ hx => hx.1.le) _ hm).le, (gauss_nodes_lt h4 hex' (posDef_jacobi h1 h2) (fun _ hx => hx.2.le) _ hm).le⟩,
      div_nonneg (gauss_weights_pos h4 hex' (posDef_jacobi h1 h2) _ hm).le h4.le, ?_⟩
    have hle : (A s)[(i : ℕ)].2 ≤ ((A s).map Prod.snd).sum := by
      refine List.single_le_sum (fun x hx => ?_) _ (List.mem_map.2 ⟨_, hm, rfl⟩)
      obtain ⟨q, hq, rfl⟩ := List.mem_map.1 hx
      exact (gauss_weights_pos h4 hex' (posDef_jacobi h1 h2) _ hq).le
    have hmass := gauss_mass hex'
    rw [hmass] at hle
    have h3' : ∫ x in Set.Ioo (-1) 1, jacW (θ s).1 (θ s).2 x < m + 1 := by simpa [weightIntegral] using h3
    rw [div_le_iff₀ h4]
    nlinarith
  · refine ((jacobi_moment_tendsto hα hβ p).comp hθ).congr' ?_
    filter_upwards [hc, hA] with s h4 h5
    rw [normPairs_sum h5.1 (c s) fun x => p.eval x, h5.2 p hp, mul_div_cancel_left₀ _ h4.ne']
    rfl

/-- Gauss-Jacobi rules with `n` nodes, of any positive total factor `c`, converge to the Gauss-Jacobi rule of the limit parameters, whatever these are -/
theorem jacobi_tendsto {B : List (ℝ × ℝ)} {c₀ : ℝ} (hc₀ : 0 < c₀) (hB : B.length = n) (hex : ExactUpTo B (2 * n - 1) (Set.Ioo (-1) 1) (jacW α β) c₀) {f : ℝ → ℝ}
    (hf : ContinuousOn f (Set.Ioo (-1) 1)) : Tendsto (fun s => quad (A s) f / c s) l (𝓝 (quad B f / c₀)) := by
  have hBn : ∀ p ∈ B, p.1 ∈ Set.Ioo (-1 : ℝ) 1 := fun p hp =>
    ⟨gauss_nodes_gt hc₀ (by rwa [hB]) (posDef_jacobi hα hβ) (fun _ hx => hx.1.le) p hp, gauss_nodes_lt hc₀ (by rwa [hB]) (posDef_jacobi hα hβ) (fun _ hx => hx.2.le) p hp⟩
  obtain ⟨M, h1, h2⟩ := jacobi_normPairs hα hβ hθ hc hA
  refine (gauss_tendsto_compact (isCompact_univ_pi fun _ => isCompact_Icc.prod isCompact_Icc) h1 h2 (posDef_jacobi hα hβ) hc₀ hB hex (f := f)
    (fun p hp => hf.continuousAt (Ioo_mem_nhds (hBn p hp).1 (hBn p hp).2))).congr' ?_
  filter_upwards [hA] with s hs using normPairs_sum hs.1 _ f

theorem jacobi_limit_exists [l.NeBot] : ∃ B : List (ℝ × ℝ), B.length = n ∧ ExactUpTo B (2 * n - 1) (Set.Ioo (-1) 1) (jacW α β) 1 := by
  obtain ⟨M, h1, h2⟩ := jacobi_normPairs hα hβ hθ hc hA
  exact gauss_exists_compact (isCompact_univ_pi fun _ => isCompact_Icc.prod isCompact_Icc) h1 h2

end

end GaussQuad
