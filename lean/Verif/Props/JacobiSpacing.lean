import Verif.Proofs.JacobiRate
import Verif.Props.BoundedVariation
import Verif.Props.Interlacing

/-!
# C96: spacing of the Gauss-Jacobi nodes, size of the weights for every pair of parameters, and the rate for integrands of bounded variation

`/repo/src/jacobi/mod.rs:75-140` (`new`), `:150-164` (`integrate`).
-/

namespace GaussQuad.Props
open Polynomial Spec FloatOps MeasureTheory

/-- C96: the angles `arccos` of different nodes `x < y` are at least `π / √((n + (α+β+1)/2)² + max(0, 1/4-α²) / (2(1-y)) + max(0, 1/4-β²) / (2(1+x)))` apart -/
theorem C96_gap {ext : Externals ℝ} (hext : ExactSolver ext) (mode : Overflow) {n : ℕ} (hn : 0 < n) {α β : FiniteAboveNegOne ℝ} (hα : -1 < α.get) (hβ : -1 < β.get)
    (hs : α.get + β.get ≠ -1) (hd : ¬ Delegated α.get β.get) (hodd : n % 2 = 0 ∨ n = 1 ∨ α = β) :
    ∃ r : JacobiRule ℝ, GaussJacobi.new mode ext n α β = some r ∧ ∀ p ∈ r.asNodeWeightPairs, ∀ q ∈ r.asNodeWeightPairs, p.1 < q.1 → -1 < p.1 ∧ q.1 < 1 ∧
      Real.pi / Real.sqrt ((n + (α.get + β.get + 1) / 2) ^ 2 + max 0 (1 / 4 - α.get ^ 2) / (2 * (1 - q.1)) + max 0 (1 / 4 - β.get ^ 2) / (2 * (1 + p.1))) ≤
        Real.arccos p.1 - Real.arccos q.1 := by
  obtain ⟨r, c, h1, hc, -, h2⟩ := jacobi_isGauss hext mode hn hα hβ hs hd hodd
  refine ⟨r, h1, fun p hp q hq hpq => ?_⟩
  have hp1 := (jacobi_nodes hα hβ h2 hc p hp).1
  have hq1 := (jacobi_nodes hα hβ h2 hc q hq).2
  exact ⟨hp1, hq1, jacobi_gap hα hβ hs hc hn h2 (List.mem_map.2 ⟨p, hp, rfl⟩) (List.mem_map.2 ⟨q, hq, rfl⟩) hp1 hq1 hpq⟩

/-- C96: no interval `[x, y)` inside `(-1, 1)` whose angles differ by at least `π / ω` is free of nodes, if `ω² ≤ (n + (α+β+1)/2)² - max(0, α²-1/4) / (2(1-y)) - max(0, β²-1/4) / (2(1+x))` -/
theorem C96_dense {ext : Externals ℝ} (hext : ExactSolver ext) (mode : Overflow) {n : ℕ} (hn : 0 < n) {α β : FiniteAboveNegOne ℝ} (hα : -1 < α.get) (hβ : -1 < β.get)
    (hs : α.get + β.get ≠ -1) (hd : ¬ Delegated α.get β.get) (hodd : n % 2 = 0 ∨ n = 1 ∨ α = β) :
    ∃ r : JacobiRule ℝ, GaussJacobi.new mode ext n α β = some r ∧ ∀ x y ω : ℝ, -1 < x → y < 1 → 0 < ω →
      ω ^ 2 ≤ (n + (α.get + β.get + 1) / 2) ^ 2 - max 0 (α.get ^ 2 - 1 / 4) / (2 * (1 - y)) - max 0 (β.get ^ 2 - 1 / 4) / (2 * (1 + x)) →
      Real.pi / ω ≤ Real.arccos x - Real.arccos y → ∃ q ∈ r.asNodeWeightPairs, x ≤ q.1 ∧ q.1 < y := by
  obtain ⟨r, c, h1, hc, -, h2⟩ := jacobi_isGauss hext mode hn hα hβ hs hd hodd
  refine ⟨r, h1, fun x y ω hx hy hω hω2 hlen => ?_⟩
  have hδ : 0 < Real.pi / ω := div_pos Real.pi_pos hω
  have hxy : x < y := by
    by_contra hcon
    linarith [Real.arccos_le_arccos (not_lt.1 hcon)]
  have hcx : Real.cos (Real.arccos x) = x := Real.cos_arccos hx.le (by linarith)
  have hcy : Real.cos (Real.arccos y) = y := Real.cos_arccos (by linarith) hy.le
  have hy0 : 0 < Real.arccos y := Real.arccos_pos.2 hy
  have hxπ : Real.arccos x < Real.pi := by
    have := Real.arccos_lt_arccos le_rfl hx (by linarith)
    rwa [Real.arccos_neg_one] at this
  set v := Real.arccos y + Real.pi / ω with hv
  have hvx : v ≤ Real.arccos x := by rw [hv]; linarith
  have hcv : x ≤ Real.cos v := by
    rw [← hcx]; exact Real.cos_le_cos_of_nonneg_of_le_pi (by rw [hv]; linarith) hxπ.le hvx
  obtain ⟨⟨t, t1, t2, t3⟩, -⟩ := jacobi_node_in hα hβ hs hc hn h2 (u := Real.arccos y) (v := v) hy0 hω hv (by linarith) (by
    rw [hcy]
    refine hω2.trans ?_
    have := div_le_div_of_nonneg_left (le_max_left 0 (β.get ^ 2 - 1 / 4)) (show 0 < 2 * (1 + x) by linarith) (show 2 * (1 + x) ≤ 2 * (1 + Real.cos v) by linarith)
    linarith)
  obtain ⟨q, hq, hqt⟩ := List.mem_map.1 t3
  refine ⟨q, hq, ?_, ?_⟩
  · rw [hqt]; exact hcv.trans (Real.cos_le_cos_of_nonneg_of_le_pi (by linarith) (by linarith) t2)
  · rw [hqt, ← hcy]; exact Real.cos_lt_cos_of_nonneg_of_le_pi hy0.le (by linarith) t1

/-- C96: for every pair of parameters and every degree (also the odd ones, where the middle node is overwritten), the largest weight and the error for integrands of bounded variation are
`O(n^(-min(1, 2α+2, 2β+2)))` -/
theorem C96_rate {ext : Externals ℝ} (hext : ExactSolver ext) {α β : FiniteAboveNegOne ℝ} (hα : -1 < α.get) (hβ : -1 < β.get) (hs : α.get + β.get ≠ -1) :
    ∃ K c : ℝ, 0 ≤ K ∧ |c - 1| ≤ 6e-12 ∧ ∀ n : ℕ, 0 < n → ∃ r : JacobiRule ℝ, GaussJacobi.newGeneral ext n α β = some r ∧
      (∀ q ∈ r.asNodeWeightPairs, q.2 ≤ K / (n : ℝ) ^ min 1 (min (2 * α.get + 2) (2 * β.get + 2))) ∧
      ∀ (f : ℝ → ℝ) (a b : ℝ), a ≠ b → BoundedVariationOn f (Set.uIcc a b) →
      |(AnyRule.jacobi r).value a b f - c * ∫ t in a..b, f t * ((1 - (2 * t - a - b) / (b - a)) ^ α.get * (1 + (2 * t - a - b) / (b - a)) ^ β.get)| ≤
        |b - a| * (K / (n : ℝ) ^ min 1 (min (2 * α.get + 2) (2 * β.get + 2))) * (eVariationOn f (Set.uIcc a b)).toReal := by
  have hc := jacobiFactor_pos hα hβ hs
  obtain ⟨K, hK, h⟩ := jacobi_weight_rate hα hβ hs hc
  refine ⟨K, jacobiFactor α.get β.get, hK, C49_jacobi_factor hα hβ hs, fun n hn => ?_⟩
  obtain ⟨r, L, h1, h2, hw, -⟩ := jacobi_general hext hn hα hβ hs
  have hW : ∀ q ∈ r.nodeWeightPairs, q.2 ≤ K / (n : ℝ) ^ min 1 (min (2 * α.get + 2) (2 * β.get + 2)) := fun q hq => by
    have : q.2 ∈ L.map (·.2) := hw ▸ List.mem_map.2 ⟨q, hq, rfl⟩
    obtain ⟨p, hp, e⟩ := List.mem_map.1 this
    rw [← e]; exact h n L hn h2 p hp
  obtain ⟨r', h1', -, -, hbv⟩ := jacobi_bv hext hn hα hβ hs
  rw [h1, Option.some.injEq] at h1'
  subst h1'
  exact ⟨r, h1, hW, fun f a b hab hf => hbv f _ a b hab hf hW⟩

/-- degree 100, `α = β = 1/4`: the angles of neighbouring nodes differ by at least `π / √(100.75² + (3/32)(1/(1-y) + 1/(1+x)))`, and there is a node in `[0, 1/25)` -/
example {ext : Externals ℝ} (hext : ExactSolver ext) : ∃ r : JacobiRule ℝ, GaussJacobi.new .checked ext 100 ⟨1 / 4⟩ ⟨1 / 4⟩ = some r ∧
    ∃ q ∈ r.asNodeWeightPairs, 0 ≤ q.1 ∧ q.1 < 1 / 25 := by
  have hd : ¬ Delegated (1 / 4 : ℝ) (1 / 4) := by rintro (⟨h, -⟩ | ⟨h, -⟩ | ⟨h, -⟩) <;> norm_num at h
  obtain ⟨r, h1, h⟩ := C96_dense hext .checked (n := 100) (by norm_num) (α := ⟨1 / 4⟩) (β := ⟨1 / 4⟩) (by norm_num [FiniteAboveNegOne.get]) (by norm_num [FiniteAboveNegOne.get])
    (by norm_num [FiniteAboveNegOne.get]) hd (Or.inl rfl)
  refine ⟨r, h1, h 0 (1 / 25) 100 (by norm_num) (by norm_num) (by norm_num) ?_ ?_⟩
  · have hm : max 0 ((FiniteAboveNegOne.get (⟨1 / 4⟩ : FiniteAboveNegOne ℝ)) ^ 2 - 1 / 4) = 0 := by norm_num [FiniteAboveNegOne.get]
    rw [hm]
    norm_num [FiniteAboveNegOne.get]
  · rw [Real.arccos_zero, Real.arccos_eq_pi_div_two_sub_arcsin]
    have h2 : (1 / 25 : ℝ) ≤ Real.arcsin (1 / 25) := by
      have := Real.sin_le (x := Real.arcsin (1 / 25)) (Real.arcsin_nonneg.2 (by norm_num))
      rwa [Real.sin_arcsin (by norm_num) (by norm_num)] at this
    rw [sub_sub_cancel]
    refine le_trans ?_ h2
    rw [div_le_iff₀ (by norm_num)]
    linarith [Real.pi_lt_d2]

/-- `α = -9/10`, `β = 3`: the error for a step function is `O(n^(-1/5))` -/
example {ext : Externals ℝ} (hext : ExactSolver ext) : ∃ K c : ℝ, |c - 1| ≤ 6e-12 ∧ ∀ n : ℕ, 0 < n → ∃ r : JacobiRule ℝ, GaussJacobi.newGeneral ext n ⟨-9 / 10⟩ ⟨3⟩ = some r ∧
    |(AnyRule.jacobi r).value (-1) 1 step - c * ∫ t in (-1 : ℝ)..1, step t * ((1 - t) ^ (-9 / 10 : ℝ) * (1 + t) ^ (3 : ℝ))| ≤ K / (n : ℝ) ^ (1 / 5 : ℝ) := by
  obtain ⟨b1, b2⟩ := bv_step (Set.uIcc (-1) 1)
  obtain ⟨K, c, hK, hc, h⟩ := C96_rate hext (α := ⟨-9 / 10⟩) (β := ⟨3⟩) (by norm_num [FiniteAboveNegOne.get]) (by norm_num [FiniteAboveNegOne.get]) (by norm_num [FiniteAboveNegOne.get])
  refine ⟨2 * K, c, hc, fun n hn => ?_⟩
  obtain ⟨r, hr, -, hf⟩ := h n hn
  have h1 := hf step (-1) 1 (by norm_num) b1
  rw [show min 1 (min (2 * FiniteAboveNegOne.get (⟨-9 / 10⟩ : FiniteAboveNegOne ℝ) + 2) (2 * FiniteAboveNegOne.get (⟨3⟩ : FiniteAboveNegOne ℝ) + 2)) = (1 / 5 : ℝ) by
    norm_num [FiniteAboveNegOne.get]] at h1
  refine ⟨r, hr, ?_⟩
  have e : ∀ t : ℝ, (2 * t - -1 - 1) / (1 - -1) = t := fun t => by ring
  simp only [e] at h1
  refine h1.trans ?_
  have h2 : |(1 : ℝ) - -1| = 2 := by norm_num
  rw [h2, mul_div_assoc 2 K]
  exact mul_le_of_le_one_right (mul_nonneg zero_le_two (div_nonneg hK (Real.rpow_nonneg (Nat.cast_nonneg n) _))) b2

/-- parameters `(1, 2)`, six nodes: the angles of the nodes are at least `π / 8` apart -/
example : ∃ ext : Externals ℝ, ExactSolver ext ∧ ∃ r : JacobiRule ℝ, GaussJacobi.new .checked ext 6 ⟨1⟩ ⟨2⟩ = some r ∧
    ∀ p ∈ r.asNodeWeightPairs, ∀ q ∈ r.asNodeWeightPairs, p.1 < q.1 → Real.pi / 8 ≤ Real.arccos p.1 - Real.arccos q.1 := by
  obtain ⟨r, h1, h2⟩ := C96_gap exactSolver_exists .checked (n := 6) (by norm_num) (α := ⟨1⟩) (β := ⟨2⟩) (by norm_num [FiniteAboveNegOne.get]) (by norm_num [FiniteAboveNegOne.get])
    (by norm_num [FiniteAboveNegOne.get]) (by norm_num [FiniteAboveNegOne.get, Delegated]) (.inl rfl)
  refine ⟨_, exactSolver_exists, r, h1, fun p hp q hq hpq => le_of_eq_of_le ?_ (h2 p hp q hq hpq).2.2⟩
  have : Real.sqrt 64 = 8 := by rw [show (64 : ℝ) = 8 ^ 2 by norm_num]; exact Real.sqrt_sq (by norm_num)
  norm_num [FiniteAboveNegOne.get, this]

end GaussQuad.Props
