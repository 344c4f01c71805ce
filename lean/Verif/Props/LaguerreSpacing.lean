import Verif.Proofs.LaguerreRate
import Verif.Props.BoundedVariation

/-!
# C95: spacing of the Gauss-Laguerre nodes, size of the weights, and the rate for integrands of bounded variation

`/repo/src/laguerre/mod.rs:75-92` (`new`), `:95-105` (`integrate`).
-/

namespace GaussQuad.Props
open Polynomial Spec FloatOps MeasureTheory

/-- C95: the square roots of different nodes are at least `π / √(4n + 2α + 2 + max(0, 1/4 - α²) / x)` apart, where `x` is the smaller of the two nodes -/
theorem C95_gap {ext : Externals ℝ} (hext : ExactSolver ext) {n : ℕ} (hn : 0 < n) {α : FiniteAboveNegOne ℝ} (hα : -1 < α.get) :
    ∃ r : LaguerreRule ℝ, GaussLaguerre.new ext n α = some r ∧ ∀ p ∈ r.asNodeWeightPairs, ∀ q ∈ r.asNodeWeightPairs, p.1 < q.1 →
      0 < p.1 ∧ Real.pi / Real.sqrt (4 * n + 2 * α.get + 2 + max 0 (1 / 4 - α.get ^ 2) / p.1) ≤ Real.sqrt q.1 - Real.sqrt p.1 := by
  obtain ⟨r, h1, -, h2⟩ := laguerre_gauss hext hn α hα
  have hc := laguerre_factor_pos hα
  refine ⟨r, h1, fun p hp q hq hpq => ?_⟩
  have hp0 : 0 < p.1 := gauss_nodes_gt hc h2.exact' (posDef_laguerre hα) (fun x hx => (show (0 : ℝ) < x from hx).le) p hp
  exact ⟨hp0, laguerre_gap hα hc hn h2 (List.mem_map.2 ⟨p, hp, rfl⟩) (List.mem_map.2 ⟨q, hq, rfl⟩) hp0 hpq⟩

/-- C95: between `0 < s` and `R`, no interval of length `π / ω` in the variable `√x` is free of nodes, if `ω² ≤ 4n + 2α + 2 - R² - max(0, α² - 1/4) / s²` -/
theorem C95_dense {ext : Externals ℝ} (hext : ExactSolver ext) {n : ℕ} (hn : 0 < n) {α : FiniteAboveNegOne ℝ} (hα : -1 < α.get) :
    ∃ r : LaguerreRule ℝ, GaussLaguerre.new ext n α = some r ∧ ∀ R s d ω : ℝ, 0 < s → d ≤ R → 0 < ω →
      ω ^ 2 ≤ 4 * n + 2 * α.get + 2 - R ^ 2 - max 0 (α.get ^ 2 - 1 / 4) / s ^ 2 → Real.pi / ω ≤ d - s → ∃ q ∈ r.asNodeWeightPairs, s < Real.sqrt q.1 ∧ Real.sqrt q.1 ≤ d := by
  obtain ⟨r, h1, -, h2⟩ := laguerre_gauss hext hn α hα
  refine ⟨r, h1, fun R s d ω hs hd hω hω2 hsd => ?_⟩
  obtain ⟨⟨x, hx, a1, a2⟩, -⟩ := laguerre_node_in hα (laguerre_factor_pos hα) hn h2 hs hω hω2 (by linarith)
  obtain ⟨q, hq, rfl⟩ := List.mem_map.1 hx
  exact ⟨q, hq, a1, by linarith⟩

/-- C95: for `|α| ≤ 1/2` every weight is at most `4π c / √(2n + 1)`, and the error for an integrand of bounded variation is at most its variation times that; `c` is the gamma factor
of the weights (`C33_exact`) -/
theorem C95_error {ext : Externals ℝ} (hext : ExactSolver ext) {n : ℕ} (hn : 0 < n) {α : FiniteAboveNegOne ℝ} (h1 : -(1 / 2) ≤ α.get) (h2 : α.get ≤ 1 / 2) :
    ∃ (r : LaguerreRule ℝ) (c : ℝ), GaussLaguerre.new ext n α = some r ∧ |c - 1| ≤ 2e-12 ∧ (∀ q ∈ r.asNodeWeightPairs, q.2 ≤ c * (4 * Real.pi / Real.sqrt (2 * n + 1))) ∧
      ∀ (f : ℝ → ℝ) (a b : ℝ), BoundedVariationOn f (Set.Ioi 0) → IntegrableOn (fun x => f x * (x ^ α.get * Real.exp (-x))) (Set.Ioi 0) ∧
      |(AnyRule.laguerre r).value a b f - c * ∫ x in Set.Ioi 0, f x * (x ^ α.get * Real.exp (-x))| ≤
        c * (4 * Real.pi / Real.sqrt (2 * n + 1)) * (eVariationOn f (Set.Ioi 0)).toReal := by
  have hα : -1 < α.get := by linarith
  obtain ⟨r, hr, -, hg⟩ := laguerre_gauss hext hn α hα
  have hc := laguerre_factor_pos hα
  have hW := fun q (hq : q ∈ r.nodeWeightPairs) => laguerre_weight_le h1 h2 hc hn hg hq
  refine ⟨r, gamma (α.get + 1) / Real.Gamma (α.get + 1), hr, C49_gamma_accurate fun m hm => ?_, hW, fun f a b hf => ?_⟩
  · have : (0 : ℝ) ≤ m := Nat.cast_nonneg m
    linarith
  have hpi := Real.pi_pos
  have h := gauss_bv measurableSet_Ioi (lagW_meas α.get) (fun x hx => (lagW_pos α.get hx).le) (integrable_laguerre hα) hc (posDef_laguerre hα) hg.exact'
    (fun q hq => gauss_nodes_gt hc hg.exact' (posDef_laguerre hα) (fun x hx => (show (0 : ℝ) < x from hx).le) q hq)
    (mul_nonneg hc.le (div_nonneg (by positivity) (Real.sqrt_nonneg _))) hW ⟨1, Set.mem_Ioi.2 one_pos⟩ hf
  exact ⟨h.1, by rw [value_real, mul_comm (_ * _)]; exact h.2⟩

/-- C95: for every parameter, largest weight and error for integrands of bounded variation are `O(n^(-min(1/2, α + 1)))` -/
theorem C95_rate {ext : Externals ℝ} (hext : ExactSolver ext) {α : FiniteAboveNegOne ℝ} (hα : -1 < α.get) :
    ∃ K c : ℝ, 0 ≤ K ∧ |c - 1| ≤ 2e-12 ∧ ∀ n : ℕ, 0 < n → ∃ r : LaguerreRule ℝ, GaussLaguerre.new ext n α = some r ∧
      (∀ q ∈ r.asNodeWeightPairs, q.2 ≤ K / (n : ℝ) ^ min (1 / 2) (α.get + 1)) ∧
      ∀ (f : ℝ → ℝ) (a b : ℝ), BoundedVariationOn f (Set.Ioi 0) → IntegrableOn (fun x => f x * (x ^ α.get * Real.exp (-x))) (Set.Ioi 0) ∧
      |(AnyRule.laguerre r).value a b f - c * ∫ x in Set.Ioi 0, f x * (x ^ α.get * Real.exp (-x))| ≤ K / (n : ℝ) ^ min (1 / 2) (α.get + 1) * (eVariationOn f (Set.Ioi 0)).toReal := by
  have hc := laguerre_factor_pos hα
  obtain ⟨K, hK, h⟩ := laguerre_weight_rate hα hc
  refine ⟨K, gamma (α.get + 1) / Real.Gamma (α.get + 1), hK, C49_gamma_accurate fun m hm => ?_, fun n hn => ?_⟩
  · have : (0 : ℝ) ≤ m := Nat.cast_nonneg m
    linarith
  obtain ⟨r, hr, -, hg⟩ := laguerre_gauss hext hn α hα
  refine ⟨r, hr, h n r.nodeWeightPairs hn hg, fun f a b hf => ?_⟩
  have hb := gauss_bv measurableSet_Ioi (lagW_meas α.get) (fun x hx => (lagW_pos α.get hx).le) (integrable_laguerre hα) hc (posDef_laguerre hα) hg.exact'
    (fun q hq => gauss_nodes_gt hc hg.exact' (posDef_laguerre hα) (fun x hx => (show (0 : ℝ) < x from hx).le) q hq)
    (div_nonneg hK (Real.rpow_nonneg (Nat.cast_nonneg n) _)) (h n r.nodeWeightPairs hn hg) ⟨1, Set.mem_Ioi.2 one_pos⟩ hf
  exact ⟨hb.1, by rw [value_real, mul_comm (K / _)]; exact hb.2⟩

/-- `α = 5`, the step function: the error is `O(1/√n)` -/
example {ext : Externals ℝ} (hext : ExactSolver ext) : ∃ K c : ℝ, |c - 1| ≤ 2e-12 ∧ ∀ n : ℕ, 0 < n → ∃ r : LaguerreRule ℝ, GaussLaguerre.new ext n ⟨5⟩ = some r ∧
    |(AnyRule.laguerre r).value 0 0 step - c * ∫ x in Set.Ioi 0, step x * (x ^ (5 : ℝ) * Real.exp (-x))| ≤ K / Real.sqrt n := by
  obtain ⟨b1, b2⟩ := bv_step (Set.Ioi 0)
  obtain ⟨K, c, hK, hc, h⟩ := C95_rate hext (α := ⟨5⟩) (by norm_num [FiniteAboveNegOne.get])
  refine ⟨K, c, hc, fun n hn => ?_⟩
  obtain ⟨r, hr, -, hf⟩ := h n hn
  have h1 := (hf step 0 0 b1).2
  rw [show min (1 / 2) (FiniteAboveNegOne.get (⟨5⟩ : FiniteAboveNegOne ℝ) + 1) = 1 / 2 by norm_num [FiniteAboveNegOne.get], ← Real.sqrt_eq_rpow] at h1
  exact ⟨r, hr, h1.trans (mul_le_of_le_one_right (div_nonneg hK (Real.sqrt_nonneg _)) b2)⟩

/-- `α = 0`, degree 1000, a step function: the rule is within `0.3` of the integral, up to the gamma factor -/
example : ∃ ext : Externals ℝ, ExactSolver ext ∧ ∃ (r : LaguerreRule ℝ) (c : ℝ), GaussLaguerre.new ext 1000 ⟨0⟩ = some r ∧ |c - 1| ≤ 2e-12 ∧
    |(AnyRule.laguerre r).value 0 0 step - c * ∫ x in Set.Ioi 0, step x * (x ^ (0 : ℝ) * Real.exp (-x))| ≤ 0.3 := by
  obtain ⟨b1, b2⟩ := bv_step (Set.Ioi 0)
  obtain ⟨r, c, h1, hc, -, h⟩ := C95_error exactSolver_exists (n := 1000) (by norm_num) (α := ⟨0⟩) (by norm_num [FiniteAboveNegOne.get]) (by norm_num [FiniteAboveNegOne.get])
  refine ⟨_, exactSolver_exists, r, c, h1, hc, (h step 0 0 b1).2.trans ?_⟩
  have hs : 44 ≤ Real.sqrt (2 * ((1000 : ℕ) : ℝ) + 1) := Real.le_sqrt_of_sq_le (by norm_num)
  have hp := Real.pi_pos
  have h3 : 4 * Real.pi / Real.sqrt (2 * ((1000 : ℕ) : ℝ) + 1) ≤ 0.29 := by
    generalize Real.sqrt (2 * ((1000 : ℕ) : ℝ) + 1) = s at hs ⊢
    rw [div_le_iff₀ (by linarith)]
    linarith [Real.pi_lt_d2]
  have h4 : 0 ≤ 4 * Real.pi / Real.sqrt (2 * ((1000 : ℕ) : ℝ) + 1) := by positivity
  generalize 4 * Real.pi / Real.sqrt (2 * ((1000 : ℕ) : ℝ) + 1) = W at h3 h4 ⊢
  have hc' := abs_le.1 hc
  norm_num at hc' h3 ⊢
  have h0 : (0 : ℝ) ≤ (eVariationOn step (Set.Ioi 0)).toReal := ENNReal.toReal_nonneg
  have h5 : c * W ≤ 3 / 10 := by nlinarith
  have h6 : 0 ≤ c * W := mul_nonneg (by linarith) h4
  nlinarith

/-- `α = -0.8` is covered by the spacing theorems: degree 50 has a node with `√x` in every half-open interval of length `1/4` between `1` and `5` -/
example {ext : Externals ℝ} (hext : ExactSolver ext) : ∃ r : LaguerreRule ℝ, GaussLaguerre.new ext 50 ⟨-4 / 5⟩ = some r ∧
    ∀ s : ℝ, 1 ≤ s → s + 1 / 4 ≤ 5 → ∃ q ∈ r.asNodeWeightPairs, s < Real.sqrt q.1 ∧ Real.sqrt q.1 ≤ s + 1 / 4 := by
  obtain ⟨r, h1, h⟩ := C95_dense hext (n := 50) (by norm_num) (α := ⟨-4 / 5⟩) (by norm_num [FiniteAboveNegOne.get])
  refine ⟨r, h1, fun s h2 h3 => h 5 s (s + 1 / 4) 13 (by linarith) h3 (by norm_num) ?_ ?_⟩
  · have hm : max 0 ((FiniteAboveNegOne.get (⟨-4 / 5⟩ : FiniteAboveNegOne ℝ)) ^ 2 - 1 / 4) = 39 / 100 := by norm_num [FiniteAboveNegOne.get]
    have h4 : (39 / 100 : ℝ) / s ^ 2 ≤ 39 / 100 := div_le_self (by norm_num) (by nlinarith)
    rw [hm]
    have e : FiniteAboveNegOne.get (⟨-4 / 5⟩ : FiniteAboveNegOne ℝ) = -4 / 5 := rfl
    rw [e]
    push_cast
    linarith
  · rw [show s + 1 / 4 - s = 1 / 4 by ring, div_le_iff₀ (by norm_num)]
    linarith [Real.pi_lt_d2]

/-- parameter 1, five nodes: the square roots of the nodes are at least `π / √24` apart -/
example : ∃ ext : Externals ℝ, ExactSolver ext ∧ ∃ r : LaguerreRule ℝ, GaussLaguerre.new ext 5 ⟨1⟩ = some r ∧
    ∀ p ∈ r.asNodeWeightPairs, ∀ q ∈ r.asNodeWeightPairs, p.1 < q.1 → Real.pi / Real.sqrt 24 ≤ Real.sqrt q.1 - Real.sqrt p.1 := by
  obtain ⟨r, h1, h2⟩ := C95_gap exactSolver_exists (n := 5) (by norm_num) (α := ⟨1⟩) (by norm_num [FiniteAboveNegOne.get])
  refine ⟨_, exactSolver_exists, r, h1, fun p hp q hq hpq => le_of_eq_of_le ?_ (h2 p hp q hq hpq).2⟩
  norm_num [FiniteAboveNegOne.get]

end GaussQuad.Props
