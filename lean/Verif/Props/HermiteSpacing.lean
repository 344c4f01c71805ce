import Verif.Proofs.NodeSpacing
import Verif.Props.BoundedVariation

/-!
# C94: spacing of the Gauss-Hermite nodes, size of the weights, and the rate for integrands of bounded variation

`/repo/src/hermite/mod.rs:71-76` (`new`), `:79-88` (`integrate`).
-/

namespace GaussQuad.Props
open Polynomial Spec FloatOps MeasureTheory

/-- C94: different nodes are at least `π / √(2n + 1)` apart -/
theorem C94_gap {ext : Externals ℝ} (hext : ExactSolver ext) {n : ℕ} (hn : 0 < n) :
    ∃ r : Rule ℝ, GaussHermite.new ext n = some r ∧
      ∀ p ∈ r.asNodeWeightPairs, ∀ q ∈ r.asNodeWeightPairs, p ≠ q → Real.pi / Real.sqrt (2 * n + 1) ≤ |p.1 - q.1| := by
  obtain ⟨r, h1, h2⟩ := hermite_gauss hext hn
  refine ⟨r, h1, fun p hp q hq hpq => ?_⟩
  have hp' : p.1 ∈ r.nodeWeightPairs.map Prod.fst := List.mem_map.2 ⟨p, hp, rfl⟩
  have hq' : q.1 ∈ r.nodeWeightPairs.map Prod.fst := List.mem_map.2 ⟨q, hq, rfl⟩
  have hne : p.1 ≠ q.1 := fun h => hpq (List.inj_on_of_nodup_map (gauss_nodes_nodup one_pos h2.exact' posDef_hermite) hp hq h)
  rcases lt_or_gt_of_ne hne with h | h
  · rw [abs_sub_comm]
    exact (hermite_gap hn h2 hp' hq' h).trans (le_abs_self _)
  · exact (hermite_gap hn h2 hq' hp' h).trans (le_abs_self _)

/-- C94: inside `[-R, R]` no interval of length `π / √(2n + 1 - R²)` is free of nodes -/
theorem C94_dense {ext : Externals ℝ} (hext : ExactSolver ext) {n : ℕ} (hn : 0 < n) :
    ∃ r : Rule ℝ, GaussHermite.new ext n = some r ∧ ∀ R c d : ℝ, R ^ 2 < 2 * n + 1 → -R ≤ c → d ≤ R → Real.pi / Real.sqrt (2 * n + 1 - R ^ 2) ≤ d - c →
      ∃ q ∈ r.asNodeWeightPairs, c < q.1 ∧ q.1 ≤ d := by
  obtain ⟨r, h1, h2⟩ := hermite_gauss hext hn
  refine ⟨r, h1, fun R c d hR hc hd hcd => ?_⟩
  obtain ⟨x, hx, a1, a2⟩ := hermite_node_in hn h2 hR hc (by linarith)
  obtain ⟨q, hq, rfl⟩ := List.mem_map.1 hx
  exact ⟨q, hq, a1, by linarith⟩

/-- C94: a weight is at most the integral of the weight function over a neighbourhood of its node, and never more than `2π / √(n + 1)` -/
theorem C94_weight {ext : Externals ℝ} (hext : ExactSolver ext) {n : ℕ} (hn : 0 < n) :
    ∃ r : Rule ℝ, GaussHermite.new ext n = some r ∧ ∀ q ∈ r.asNodeWeightPairs, q.2 ≤ 2 * Real.pi / Real.sqrt (n + 1) ∧
      ∀ R : ℝ, R ^ 2 < 2 * n + 1 → |q.1| + Real.pi / Real.sqrt (2 * n + 1 - R ^ 2) ≤ R →
        q.2 ≤ ∫ x in (q.1 - Real.pi / Real.sqrt (2 * n + 1 - R ^ 2))..(q.1 + Real.pi / Real.sqrt (2 * n + 1 - R ^ 2)), Real.exp (-x ^ 2) := by
  obtain ⟨r, h1, h2⟩ := hermite_gauss hext hn
  refine ⟨r, h1, fun q hq => ⟨hermite_weight_le hn h2 hq, fun R hR hqR => ?_⟩⟩
  have hδ : 0 ≤ Real.pi / Real.sqrt (2 * n + 1 - R ^ 2) := div_nonneg Real.pi_pos.le (Real.sqrt_nonneg _)
  rw [intervalIntegral.integral_of_le (by linarith), integral_Ioc_eq_integral_Ioo]
  exact hermite_weight_near hn h2 hR hq hqR

/-- C94: the error for an integrand of bounded variation is at most its variation times `2π / √(n + 1)` -/
theorem C94_error {ext : Externals ℝ} (hext : ExactSolver ext) {n : ℕ} (hn : 0 < n) {f : ℝ → ℝ} (hf : BoundedVariationOn f Set.univ) :
    ∃ r : Rule ℝ, GaussHermite.new ext n = some r ∧ Integrable (fun x => f x * Real.exp (-x ^ 2)) ∧
      ∀ a b : ℝ, |(AnyRule.hermite r).value a b f - ∫ x, f x * Real.exp (-x ^ 2)| ≤ 2 * Real.pi / Real.sqrt (n + 1) * (eVariationOn f Set.univ).toReal := by
  obtain ⟨r, h1, h2⟩ := C75_hermite hext hn
  obtain ⟨r', h1', h2'⟩ := C94_weight hext hn
  rw [h1, Option.some.injEq] at h1'
  subst h1'
  have h := fun a b => h2 f (2 * Real.pi / Real.sqrt (n + 1)) a b hf fun q hq => (h2' q hq).1
  exact ⟨r, h1, (h 0 0).1, fun a b => by rw [mul_comm]; exact (h a b).2⟩

/-- C94: the rules of growing degree converge for every integrand of bounded variation -/
theorem C94_convergence {ext : Externals ℝ} (hext : ExactSolver ext) {f : ℝ → ℝ} (hf : BoundedVariationOn f Set.univ) {ε : ℝ} (hε : 0 < ε) :
    ∃ N : ℕ, ∀ n, N ≤ n → 0 < n → ∀ r : Rule ℝ, GaussHermite.new ext n = some r → ∀ a b : ℝ, |(AnyRule.hermite r).value a b f - ∫ x, f x * Real.exp (-x ^ 2)| ≤ ε := by
  set V := (eVariationOn f Set.univ).toReal with hV
  have hV0 : 0 ≤ V := ENNReal.toReal_nonneg
  have hpi := Real.pi_pos
  obtain ⟨N, hN⟩ := exists_nat_ge ((2 * Real.pi * V / ε) ^ 2)
  refine ⟨N, fun n hn hn0 r hr a b => ?_⟩
  obtain ⟨r', h1, -, h2⟩ := C94_error hext hn0 hf
  rw [hr, Option.some.injEq] at h1
  subst h1
  refine (h2 a b).trans ?_
  have hs : 2 * Real.pi * V / ε ≤ Real.sqrt (n + 1) := by
    refine Real.le_sqrt_of_sq_le (hN.trans ?_)
    have : (N : ℝ) ≤ n := by exact_mod_cast hn
    linarith
  have hs0 : 0 < Real.sqrt (n + 1) := Real.sqrt_pos.2 (by positivity)
  rw [div_le_iff₀ hε] at hs
  rw [div_mul_eq_mul_div, div_le_iff₀ hs0]
  linarith

/-- the spacing theorem at degree 40: every interval of length `1/2` in `[-5, 5]` contains a node -/
example {ext : Externals ℝ} (hext : ExactSolver ext) : ∃ r : Rule ℝ, GaussHermite.new ext 40 = some r ∧ ∀ c : ℝ, -5 ≤ c → c + 1 / 2 ≤ 5 → ∃ q ∈ r.asNodeWeightPairs, c < q.1 ∧ q.1 ≤ c + 1 / 2 := by
  obtain ⟨r, h1, h2⟩ := C94_dense hext (n := 40) (by norm_num)
  refine ⟨r, h1, fun c h3 h4 => h2 5 c (c + 1 / 2) (by norm_num) h3 h4 ?_⟩
  have : 7 ≤ Real.sqrt (2 * ((40 : ℕ) : ℝ) + 1 - 5 ^ 2) := Real.le_sqrt_of_sq_le (by norm_num)
  generalize Real.sqrt (2 * ((40 : ℕ) : ℝ) + 1 - 5 ^ 2) = s at this ⊢
  rw [div_le_iff₀ (by linarith), show c + 1 / 2 - c = 1 / 2 by ring]
  linarith [Real.pi_lt_d2]

/-- the step at 0: the rule of degree 10000 is within `0.07` of the integral -/
example : ∃ ext : Externals ℝ, ExactSolver ext ∧ ∃ r : Rule ℝ, GaussHermite.new ext 10000 = some r ∧ ∀ a b : ℝ,
    |(AnyRule.hermite r).value a b step - ∫ x, step x * Real.exp (-x ^ 2)| ≤ 0.07 := by
  obtain ⟨h1, h2⟩ := bv_step Set.univ
  obtain ⟨r, hr, -, h⟩ := C94_error exactSolver_exists (n := 10000) (by norm_num) h1
  refine ⟨_, exactSolver_exists, r, hr, fun a b => (h a b).trans ?_⟩
  have hs : 100 ≤ Real.sqrt (((10000 : ℕ) : ℝ) + 1) := Real.le_sqrt_of_sq_le (by norm_num)
  have hp := Real.pi_pos
  have h3 : 2 * Real.pi / Real.sqrt (((10000 : ℕ) : ℝ) + 1) ≤ 0.07 := by
    generalize Real.sqrt (((10000 : ℕ) : ℝ) + 1) = s at hs ⊢
    rw [div_le_iff₀ (by linarith)]
    linarith [Real.pi_lt_d2]
  have h4 : 0 ≤ 2 * Real.pi / Real.sqrt (((10000 : ℕ) : ℝ) + 1) := by positivity
  nlinarith

/-- 12 nodes are at least 3/5 apart and no weight exceeds 2 -/
example : ∃ ext : Externals ℝ, ExactSolver ext ∧ ∃ r : Rule ℝ, GaussHermite.new ext 12 = some r ∧
    (∀ p ∈ r.asNodeWeightPairs, ∀ q ∈ r.asNodeWeightPairs, p ≠ q → 3 / 5 ≤ |p.1 - q.1|) ∧ ∀ q ∈ r.asNodeWeightPairs, q.2 ≤ 2 := by
  obtain ⟨r, h1, h2⟩ := C94_gap exactSolver_exists (n := 12) (by norm_num)
  obtain ⟨r', h1', h3⟩ := C94_weight exactSolver_exists (n := 12) (by norm_num)
  obtain rfl : r = r' := Option.some.inj (h1.symm.trans h1')
  have hp := Real.pi_gt_three
  have hp' := Real.pi_lt_d2
  refine ⟨_, exactSolver_exists, r, h1, fun p hp q hq hne => le_trans ?_ (h2 p hp q hq hne), fun q hq => (h3 q hq).1.trans ?_⟩
  · have : Real.sqrt (2 * ((12 : ℕ) : ℝ) + 1) = 5 := by
      rw [show (2 * ((12 : ℕ) : ℝ) + 1) = 5 ^ 2 by norm_num]; exact Real.sqrt_sq (by norm_num)
    rw [this]; linarith
  · have : (3.5 : ℝ) ≤ Real.sqrt (((12 : ℕ) : ℝ) + 1) := Real.le_sqrt_of_sq_le (by norm_num)
    generalize Real.sqrt (((12 : ℕ) : ℝ) + 1) = t at this ⊢
    norm_num at this hp'
    rw [div_le_iff₀ (by linarith)]; linarith

/-- the step function: the rule converges -/
example {ext : Externals ℝ} (hext : ExactSolver ext) : ∃ N : ℕ, ∀ n, N ≤ n → 0 < n → ∀ r : Rule ℝ, GaussHermite.new ext n = some r →
    |(AnyRule.hermite r).value 0 0 step - ∫ x, step x * Real.exp (-x ^ 2)| ≤ 1e-6 :=
  let ⟨N, h⟩ := C94_convergence hext (bv_step Set.univ).1 (ε := 1e-6) (by norm_num)
  ⟨N, fun n hn h0 r hr => h n hn h0 r hr 0 0⟩

end GaussQuad.Props
