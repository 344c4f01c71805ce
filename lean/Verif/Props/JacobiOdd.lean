import Verif.Proofs.JacobiMiddle
import Verif.Proofs.NodeSums
import Verif.Props.Analytic

/-!
# C103: Gauss-Jacobi rules of odd degree with different parameters

`/repo/src/jacobi/mod.rs:132-137` overwrites the middle node of every rule of odd degree by 0, also when `α ≠ β`.  The theorems say what that costs.
-/

namespace GaussQuad.Props
open Polynomial Spec FloatOps MeasureTheory

/-- the rule the code builds at an odd degree `n > 1` with `α ≠ β`, and the true one -/
theorem jacobi_odd_rule {ext : Externals ℝ} (hext : ExactSolver ext) (mode : Overflow) {n : ℕ} (hn : 1 < n) (hodd : n % 2 = 1)
    {α β : FiniteAboveNegOne ℝ} (hα : -1 < α.get) (hβ : -1 < β.get) (hne : α.get ≠ β.get) (hs : α.get + β.get ≠ -1) :
    ∃ (r : JacobiRule ℝ) (L : List (ℝ × ℝ)), GaussJacobi.new mode ext n α β = some r ∧ GaussJacobi.newGeneral ext n α β = some r ∧
      IsGauss L n (Set.Ioo (-1) 1) (jacW α.get β.get) (jacobiFactor α.get β.get) ∧
      ∃ h : n / 2 < L.length, r.nodeWeightPairs = L.set (n / 2) (0, (L[n / 2]).2) ∧ 0 < (L[n / 2]).2 ∧
        (α.get < β.get → 0 < (L[n / 2]).1) ∧ (β.get < α.get → (L[n / 2]).1 < 0) ∧
        |(L[n / 2]).1| ≤ Real.pi * (|α.get| + |β.get| + 4) / (4 * n - 2) ∧
        ∀ (a b : ℝ) (f : ℝ → ℝ), (AnyRule.jacobi r).value a b f = (b - a) / 2 * quad L (fun x => f ((b - a) / 2 * x + (a + b) / 2)) +
          (b - a) / 2 * (L[n / 2]).2 * (f ((a + b) / 2) - f ((a + b) / 2 + (b - a) / 2 * (L[n / 2]).1)) := by
  have hd : ¬ Delegated α.get β.get := by
    rintro (⟨h1, h2⟩ | ⟨h1, h2⟩ | ⟨h1, h2⟩) <;> exact hne (h1.trans h2.symm)
  obtain ⟨r, L, h1, h2, hw, -, h3, -⟩ := jacobi_general hext (by omega : 0 < n) hα hβ hs
  obtain ⟨hlt, h4⟩ := h3 hodd
  have hfac := jacobiFactor_pos hα hβ hs
  obtain ⟨g1, g2⟩ := jacobi_middle_ne hext hα hβ hne hfac h2 hodd hlt
  refine ⟨r, L, ?_, h1, h2, hlt, h4, gauss_weights_pos hfac h2.exact' (posDef_jacobi hα hβ) _ (List.getElem_mem hlt), g1, g2,
    jacobi_middle_abs hext hα hβ hs h2 hodd hlt, fun a b f => ?_⟩
  · rw [jacobi_new_general mode ext (by omega) hd]; exact h1
  · rw [value_gauss_quad rfl]
    have e := quad_set_sub L hlt 0 (fun x => f ((b - a) / 2 * x + (a + b) / 2))
    rw [← h4] at e
    simp only [mul_zero, zero_add] at e
    rw [show (a + b) / 2 + (b - a) / 2 * (L[n / 2]).1 = (b - a) / 2 * (L[n / 2]).1 + (a + b) / 2 by ring]
    show (b - a) / 2 * quad r.nodeWeightPairs _ = _
    linear_combination (b - a) / 2 * e

/-- C103: for polynomials up to degree `2n-1`, the result is the exact weighted integral (times the gamma factor `c`) plus the weight of the middle pair times the difference of the integrand
at the centre and at the true middle node `x`; `x` is not 0, has the sign of `β - α`, and is at most `π(|α|+|β|+4)/(4n-2)` from 0 -/
theorem C103_value {ext : Externals ℝ} (hext : ExactSolver ext) (mode : Overflow) {n : ℕ} (hn : 1 < n) (hodd : n % 2 = 1)
    {α β : FiniteAboveNegOne ℝ} (hα : -1 < α.get) (hβ : -1 < β.get) (hne : α.get ≠ β.get) (hs : α.get + β.get ≠ -1) :
    ∃ (r : JacobiRule ℝ) (c x w : ℝ), GaussJacobi.new mode ext n α β = some r ∧ |c - 1| ≤ 6e-12 ∧ r.asNodeWeightPairs[n / 2]? = some (0, w) ∧ 0 < w ∧
      (α.get < β.get → 0 < x) ∧ (β.get < α.get → x < 0) ∧ |x| ≤ Real.pi * (|α.get| + |β.get| + 4) / (4 * n - 2) ∧
      ∀ p : ℝ[X], p.natDegree ≤ 2 * n - 1 → ∀ a b : ℝ, a ≠ b →
        (AnyRule.jacobi r).value a b (fun t => p.eval t) =
          c * (∫ t in a..b, p.eval t * ((1 - (2 * t - a - b) / (b - a)) ^ α.get * (1 + (2 * t - a - b) / (b - a)) ^ β.get)) +
          (b - a) / 2 * w * (p.eval ((a + b) / 2) - p.eval ((a + b) / 2 + (b - a) / 2 * x)) := by
  obtain ⟨r, L, h1, -, h2, hlt, h4, hw, hx1, hx2, hx3, hv⟩ := jacobi_odd_rule hext mode hn hodd hα hβ hne hs
  refine ⟨r, jacobiFactor α.get β.get, (L[n / 2]).1, (L[n / 2]).2, h1, C49_jacobi_factor hα hβ hs, ?_, hw, hx1, hx2, hx3, fun p hp a b hab => ?_⟩
  · show r.nodeWeightPairs[n / 2]? = _
    rw [h4, List.getElem?_set_self hlt]
  · rw [hv]
    have e := exact_interval h2.exact' hab (p := p) (by rw [h2.length]; exact hp)
    have e2 : quad (L.map fun q => ((b - a) / 2 * q.1 + (a + b) / 2, (b - a) / 2 * q.2)) (fun x => p.eval x) =
        (b - a) / 2 * quad L (fun x => p.eval ((b - a) / 2 * x + (a + b) / 2)) := by
      simp only [quad, List.map_map]
      rw [← List.sum_map_mul_left]
      congr 1
      apply List.map_congr_left
      intro q _
      simp only [Function.comp_apply]
      ring
    rw [e2] at e
    rw [e]
    rfl

/-- C103: constants are integrated exactly (up to the gamma factor `c`), every other linear function wrongly: the result for `m t + k` errs in the direction of `m (α - β)` -/
theorem C103_linear {ext : Externals ℝ} (hext : ExactSolver ext) (mode : Overflow) {n : ℕ} (hn : 1 < n) (hodd : n % 2 = 1)
    {α β : FiniteAboveNegOne ℝ} (hα : -1 < α.get) (hβ : -1 < β.get) (hne : α.get ≠ β.get) (hs : α.get + β.get ≠ -1) :
    ∃ (r : JacobiRule ℝ) (c : ℝ), GaussJacobi.new mode ext n α β = some r ∧ |c - 1| ≤ 6e-12 ∧ ∀ m k a b : ℝ, a ≠ b →
      (m = 0 → (AnyRule.jacobi r).value a b (fun t => m * t + k) =
        c * ∫ t in a..b, (m * t + k) * ((1 - (2 * t - a - b) / (b - a)) ^ α.get * (1 + (2 * t - a - b) / (b - a)) ^ β.get)) ∧
      (m ≠ 0 → 0 < ((AnyRule.jacobi r).value a b (fun t => m * t + k) -
        c * ∫ t in a..b, (m * t + k) * ((1 - (2 * t - a - b) / (b - a)) ^ α.get * (1 + (2 * t - a - b) / (b - a)) ^ β.get)) * (m * (α.get - β.get))) := by
  obtain ⟨r, c, x, w, h1, hc, -, hw, hx1, hx2, -, h⟩ := C103_value hext mode hn hodd hα hβ hne hs
  refine ⟨r, c, h1, hc, fun m k a b hab => ?_⟩
  have e := h (C m * X + C k) ((natDegree_linear_le).trans (by omega)) a b hab
  simp only [eval_add, eval_mul, eval_C, eval_X] at e
  refine ⟨fun h0 => ?_, fun h0 => ?_⟩
  · rw [e, h0]; ring
  · rw [e]
    have : (c * (∫ t in a..b, (m * t + k) * ((1 - (2 * t - a - b) / (b - a)) ^ α.get * (1 + (2 * t - a - b) / (b - a)) ^ β.get)) +
        (b - a) / 2 * w * (m * ((a + b) / 2) + k - (m * ((a + b) / 2 + (b - a) / 2 * x) + k)) -
        c * ∫ t in a..b, (m * t + k) * ((1 - (2 * t - a - b) / (b - a)) ^ α.get * (1 + (2 * t - a - b) / (b - a)) ^ β.get)) * (m * (α.get - β.get)) =
        ((b - a) / 2) ^ 2 * m ^ 2 * w * (x * (β.get - α.get)) := by ring
    rw [this]
    have hb : 0 < ((b - a) / 2) ^ 2 := by have := (div_ne_zero (sub_ne_zero.2 (Ne.symm hab)) two_ne_zero); positivity
    have hm : 0 < m ^ 2 := by have := h0; positivity
    have hx : 0 < x * (β.get - α.get) := by
      rcases lt_or_gt_of_ne hne with h' | h'
      · exact mul_pos (hx1 h') (by linarith)
      · exact mul_pos_of_neg_of_neg (hx2 h') (by linarith)
    positivity

/-- C103: for integrands analytic on an ellipse around the interval, with Lipschitz constant `Λ` between the bounds, the error is at most the geometric term of `C82_jacobi` plus
`Λ (b-a)² K / n^(1 + min(1, 2α+2, 2β+2))`, with a constant `K` that depends on the parameters only -/
theorem C103_rate {ext : Externals ℝ} (hext : ExactSolver ext) (mode : Overflow) {α β : FiniteAboveNegOne ℝ} (hα : -1 < α.get) (hβ : -1 < β.get) (hne : α.get ≠ β.get)
    (hs : α.get + β.get ≠ -1) :
    ∃ K c : ℝ, 0 ≤ K ∧ |c - 1| ≤ 6e-12 ∧ ∀ n : ℕ, 1 < n → n % 2 = 1 → ∃ r : JacobiRule ℝ, GaussJacobi.new mode ext n α β = some r ∧
      ∀ (a b ρ M Λ : ℝ) (g : ℝ → ℝ), a ≠ b → 1 < ρ → AnalyticAround g a b ρ M → (∀ s ∈ Set.uIcc a b, ∀ t ∈ Set.uIcc a b, |g s - g t| ≤ Λ * |s - t|) →
      |(AnyRule.jacobi r).value a b g - c * ∫ t in a..b, g t * ((1 - (2 * t - a - b) / (b - a)) ^ α.get * (1 + (2 * t - a - b) / (b - a)) ^ β.get)| ≤
        c * (2 * |b - a| * M * ρ⁻¹ ^ (2 * n - 1) / (ρ - 1) * ∫ x in Set.Ioo (-1 : ℝ) 1, (1 - x) ^ α.get * (1 + x) ^ β.get) +
        Λ * (b - a) ^ 2 * (K / (n : ℝ) ^ (1 + min 1 (min (2 * α.get + 2) (2 * β.get + 2)))) := by
  have hc := jacobiFactor_pos hα hβ hs
  obtain ⟨K, hK, hrate⟩ := jacobi_weight_rate hα hβ hs hc
  have hA := abs_nonneg α.get
  have hB := abs_nonneg β.get
  refine ⟨K * (|α.get| + |β.get| + 4), jacobiFactor α.get β.get, by positivity, C49_jacobi_factor hα hβ hs, fun n hn hodd => ?_⟩
  obtain ⟨r, L, h1, -, h2, hlt, h4, hw, hx1, hx2, hx3, hv⟩ := jacobi_odd_rule hext mode hn hodd hα hβ hne hs
  refine ⟨r, h1, fun a b ρ M Λ g hab hρ hg hΛ => ?_⟩
  have hn0 : (1 : ℝ) < n := by exact_mod_cast hn
  have h := Bernstein.interval_analytic (by rw [h2.length]; omega) hc h2.exact' (posDef_jacobi hα hβ)
    (fun x hx => mul_nonneg (Real.rpow_nonneg (by linarith [hx.2]) _) (Real.rpow_nonneg (by linarith [hx.1]) _)) (integrable_jacobi hα hβ) hab hρ hg
  rw [h2.length] at h
  have h := h.2
  rw [hv]
  have hwK := hrate n L (by omega) h2 _ (List.getElem_mem hlt)
  have hxin := jacobi_nodes hα hβ h2 hc _ (List.getElem_mem hlt)
  set x := (L[n / 2]).1
  set w := (L[n / 2]).2
  set κ := min 1 (min (2 * α.get + 2) (2 * β.get + 2))
  have hmem : ∀ y : ℝ, -1 < y → y < 1 → (a + b) / 2 + (b - a) / 2 * y ∈ Set.uIcc a b := by
    intro y hy1 hy2
    rw [Set.mem_uIcc]
    rcases le_total a b with h' | h'
    · exact .inl ⟨by nlinarith, by nlinarith⟩
    · exact .inr ⟨by nlinarith, by nlinarith⟩
  have hm0 := hmem 0 (by norm_num) (by norm_num)
  rw [mul_zero, add_zero] at hm0
  have hL := hΛ _ hm0 _ (hmem x hxin.1 hxin.2)
  have hΛ0 : 0 ≤ Λ := by
    have h0 := hΛ a Set.left_mem_uIcc b Set.right_mem_uIcc
    have hpos : 0 < |a - b| := abs_pos.2 (sub_ne_zero.2 hab)
    exact nonneg_of_mul_nonneg_left ((abs_nonneg _).trans h0) hpos
  have e1 : |(a + b) / 2 - ((a + b) / 2 + (b - a) / 2 * x)| = |b - a| / 2 * |x| := by
    rw [show (a + b) / 2 - ((a + b) / 2 + (b - a) / 2 * x) = -((b - a) / 2 * x) by ring, abs_neg, abs_mul, abs_div, abs_two]
  rw [e1] at hL
  have hxn : |x| ≤ 4 * ((|α.get| + |β.get| + 4) / n) := by
    refine hx3.trans ?_
    rw [div_le_iff₀ (by linarith), show 4 * ((|α.get| + |β.get| + 4) / (n : ℝ)) * (4 * n - 2) = (|α.get| + |β.get| + 4) * ((16 * n - 8) / n) by field_simp; ring, mul_comm]
    refine mul_le_mul_of_nonneg_left ?_ (by linarith)
    rw [le_div_iff₀ (by linarith)]
    nlinarith [Real.pi_le_four]
  have hnκ : 0 < (n : ℝ) ^ κ := Real.rpow_pos_of_pos (by linarith) _
  have hcorr : |(b - a) / 2 * w * (g ((a + b) / 2) - g ((a + b) / 2 + (b - a) / 2 * x))| ≤ Λ * (b - a) ^ 2 * (K * (|α.get| + |β.get| + 4) / (n : ℝ) ^ (1 + κ)) := by
    rw [abs_mul, abs_mul, abs_div, abs_two, abs_of_pos hw]
    have hd0 := abs_nonneg (b - a)
    calc |b - a| / 2 * w * |g ((a + b) / 2) - g ((a + b) / 2 + (b - a) / 2 * x)|
        ≤ |b - a| / 2 * (K / (n : ℝ) ^ κ) * (Λ * (|b - a| / 2 * (4 * ((|α.get| + |β.get| + 4) / n)))) := by
          refine mul_le_mul (mul_le_mul_of_nonneg_left hwK (by positivity)) (hL.trans ?_) (abs_nonneg _) (by positivity)
          gcongr
      _ = Λ * (b - a) ^ 2 * (K * (|α.get| + |β.get| + 4) / (n : ℝ) ^ (1 + κ)) := by
          rw [Real.rpow_add (by linarith), Real.rpow_one, ← sq_abs (b - a)]
          field_simp
          ring
  have := (abs_add_le _ _).trans (add_le_add h hcorr)
  rw [show (b - a) / 2 * quad L (fun x => g ((b - a) / 2 * x + (a + b) / 2)) + (b - a) / 2 * w * (g ((a + b) / 2) - g ((a + b) / 2 + (b - a) / 2 * x)) -
      jacobiFactor α.get β.get * (∫ t in a..b, g t * ((1 - (2 * t - a - b) / (b - a)) ^ α.get * (1 + (2 * t - a - b) / (b - a)) ^ β.get)) =
      ((b - a) / 2 * quad L (fun x => g ((b - a) / 2 * x + (a + b) / 2)) -
      jacobiFactor α.get β.get * (∫ t in a..b, g t * jacW α.get β.get ((2 * t - a - b) / (b - a)))) +
      (b - a) / 2 * w * (g ((a + b) / 2) - g ((a + b) / 2 + (b - a) / 2 * x)) by
    simp only [jacW]; ring]
  exact this

/-- C103: for parameters up to `3/2` the overwritten node stays between its neighbours, so the pairs are still in ascending order -/
theorem C103_sorted {ext : Externals ℝ} (hext : ExactSolver ext) (mode : Overflow) {n : ℕ} (hn : 1 < n) (hodd : n % 2 = 1)
    {α β : FiniteAboveNegOne ℝ} (hα : -1 < α.get) (hβ : -1 < β.get) (hne : α.get ≠ β.get) (hs : α.get + β.get ≠ -1) (hα1 : α.get ≤ 3 / 2) (hβ1 : β.get ≤ 3 / 2) :
    ∃ r : JacobiRule ℝ, GaussJacobi.new mode ext n α β = some r ∧ r.asNodeWeightPairs.Pairwise fun p q => p.1 ≤ q.1 := by
  obtain ⟨r, L, h1, -, h2, hlt, h4, -⟩ := jacobi_odd_rule hext mode hn hodd hα hβ hne hs
  refine ⟨r, h1, ?_⟩
  have hlen := h2.length
  have hnext := jacobi_next_nonneg hext hα hβ (jacobiFactor_pos hα hβ hs) hα1 h2 hodd (by omega)
  have hprev := jacobi_prev_nonpos hext hα hβ hs hβ1 h2 hodd hn (by omega)
  have hsort := List.pairwise_iff_getElem.1 h2.sorted
  have hle : ∀ (i j : ℕ) (hi : i < L.length) (hj : j < L.length), i ≤ j → (L[i]).1 ≤ (L[j]).1 := by
    intro i j hi hj hij
    rcases Nat.eq_or_lt_of_le hij with rfl | h
    · exact le_rfl
    · exact hsort i j hi hj h
  show r.nodeWeightPairs.Pairwise _
  rw [h4, List.pairwise_iff_getElem]
  intro i j hi hj hij
  rw [List.length_set] at hi hj
  rw [List.getElem_set, List.getElem_set]
  split_ifs with c1 c2 c2
  · omega
  · exact hnext.trans (hle _ _ _ _ (by omega))
  · exact (hle _ _ _ (by omega) (by omega)).trans hprev
  · exact hsort i j hi hj hij

/-- C103: if `α ≥ 2n(n+β-1) - β`, every node but the overwritten one is negative, and the pairs are not in ascending order -/
theorem C103_unsorted {ext : Externals ℝ} (hext : ExactSolver ext) (mode : Overflow) {n : ℕ} (hn : 1 < n) (hodd : n % 2 = 1)
    {α β : FiniteAboveNegOne ℝ} (hα : -1 < α.get) (hβ : -1 < β.get) (hlarge : 2 * n * (n + β.get - 1) - β.get ≤ α.get) :
    ∃ r : JacobiRule ℝ, GaussJacobi.new mode ext n α β = some r ∧ (∀ i (h : i < r.asNodeWeightPairs.length), i ≠ n / 2 → (r.asNodeWeightPairs[i]).1 < 0) ∧
      ¬ r.asNodeWeightPairs.Pairwise fun p q => p.1 ≤ q.1 := by
  have hn3 : (3 : ℝ) ≤ n := by exact_mod_cast (by omega : 3 ≤ n)
  have hαβ : β.get + 3 < α.get := by nlinarith
  obtain ⟨r, L, h1, -, h2, hlt, h4, -⟩ := jacobi_odd_rule hext mode hn hodd hα hβ (by linarith) (by intro h; linarith)
  have hs : α.get + β.get ≠ -1 := by intro h; linarith
  have hc := jacobiFactor_pos hα hβ hs
  have hlen := h2.length
  have hsum := jacobi_node_sum hα hβ hs hc (by omega) h2
  have hneg : ∀ i (h : i < L.length), (L[i]).1 < 0 := by
    intro i hi
    -- the sum of the positive numbers `1 + x` is less than 1
    have hs1 : (L.map fun p => 1 + p.1).sum = n + n * (β.get - α.get) / (2 * n + α.get + β.get) := by
      rw [← hsum, List.sum_map_add, List.map_const', List.sum_replicate, hlen]; simp
    have hle : 1 + (L[i]).1 < (L.map fun p => 1 + p.1).sum := by
      have hpos : ∀ p ∈ L, 0 < 1 + p.1 := fun p hp => by linarith [(jacobi_nodes hα hβ h2 hc p hp).1]
      obtain ⟨j, hj, hji⟩ : ∃ j, j < L.length ∧ j ≠ i := by
        rcases Nat.eq_zero_or_pos i with h | h
        · exact ⟨1, by omega, by omega⟩
        · exact ⟨0, by omega, by omega⟩
      rw [← Fin.sum_univ_getElem, ← Finset.add_sum_erase _ _ (Finset.mem_univ (⟨i, by simpa using hi⟩ : Fin (L.map fun p => 1 + p.1).length))]
      simp only [List.getElem_map]
      rw [lt_add_iff_pos_right]
      refine Finset.sum_pos (fun k _ => hpos _ (List.getElem_mem _)) ⟨⟨j, by simpa using hj⟩, ?_⟩
      simp [hji]
    have hD : 0 < 2 * n + α.get + β.get := by linarith
    have h1' : (n : ℝ) + n * (β.get - α.get) / (2 * n + α.get + β.get) ≤ 1 := by
      have : (n : ℝ) * (β.get - α.get) / (2 * n + α.get + β.get) ≤ 1 - n := by
        rw [div_le_iff₀ hD]
        linarith
      linarith
    linarith
  refine ⟨r, h1, ?_, ?_⟩
  · intro i hi hne
    change i < r.nodeWeightPairs.length at hi
    show (r.nodeWeightPairs[i]).1 < 0
    have hi' : i < L.length := by rw [h4, List.length_set] at hi; exact hi
    rw [List.getElem_of_eq h4, List.getElem_set, if_neg (Ne.symm hne)]
    exact hneg i hi'
  · intro hp
    change r.nodeWeightPairs.Pairwise _ at hp
    rw [h4, List.pairwise_iff_getElem] at hp
    have := hp (n / 2) (n / 2 + 1) (by rw [List.length_set]; omega) (by rw [List.length_set]; omega) (by omega)
    rw [List.getElem_set_self, List.getElem_set, if_neg (by omega)] at this
    linarith [hneg (n / 2 + 1) (by omega)]

/-- degree 5, `α = 1`, `β = 0`: the integral of `t (1 - t)` over `[-1, 1]` comes out too large -/
example : ∃ ext : Externals ℝ, ExactSolver ext ∧ ∃ (r : JacobiRule ℝ) (c : ℝ), GaussJacobi.new .checked ext 5 ⟨1⟩ ⟨0⟩ = some r ∧ |c - 1| ≤ 6e-12 ∧
    c * ∫ t in (-1 : ℝ)..1, t * ((1 - t) ^ (1 : ℝ) * (1 + t) ^ (0 : ℝ)) < (AnyRule.jacobi r).value (-1) 1 (fun t => t) := by
  refine ⟨_, exactSolver_exists, ?_⟩
  obtain ⟨r, c, h1, hc, h⟩ := C103_linear exactSolver_exists .checked (n := 5) (by norm_num) (by norm_num) (α := ⟨1⟩) (β := ⟨0⟩)
    (by norm_num) (by norm_num) (by norm_num) (by norm_num)
  refine ⟨r, c, h1, hc, ?_⟩
  have h2 := (h 1 0 (-1) 1 (by norm_num)).2 one_ne_zero
  have e : ∀ t : ℝ, (2 * t - -1 - 1) / (1 - -1) = t := fun t => by ring
  simp only [e, one_mul, add_zero] at h2
  have h3 : (0 : ℝ) < FiniteAboveNegOne.get (⟨1⟩ : FiniteAboveNegOne ℝ) - FiniteAboveNegOne.get (⟨0⟩ : FiniteAboveNegOne ℝ) := by norm_num [FiniteAboveNegOne.get]
  exact sub_pos.1 (pos_of_mul_pos_left h2 h3.le)

/-- degree 3: sorted for `α = 1`, `β = 0`, not sorted for `α = 13`, `β = 0` -/
example : ∃ ext : Externals ℝ, ExactSolver ext ∧
    (∃ r : JacobiRule ℝ, GaussJacobi.new .checked ext 3 ⟨1⟩ ⟨0⟩ = some r ∧ r.asNodeWeightPairs.Pairwise fun p q => p.1 ≤ q.1) ∧
    ∃ r : JacobiRule ℝ, GaussJacobi.new .checked ext 3 ⟨13⟩ ⟨0⟩ = some r ∧ ¬ r.asNodeWeightPairs.Pairwise fun p q => p.1 ≤ q.1 := by
  refine ⟨_, exactSolver_exists, C103_sorted exactSolver_exists .checked (by norm_num) (by norm_num) (by norm_num) (by norm_num) (by norm_num) (by norm_num)
    (by norm_num [FiniteAboveNegOne.get]) (by norm_num [FiniteAboveNegOne.get]), ?_⟩
  obtain ⟨r, h1, -, h2⟩ := C103_unsorted exactSolver_exists .checked (n := 3) (by norm_num) (by norm_num) (α := ⟨13⟩) (β := ⟨0⟩) (by norm_num) (by norm_num)
    (by norm_num [FiniteAboveNegOne.get])
  exact ⟨r, h1, h2⟩

/-- the exponential function with `α = 1`, `β = 0`: the error on `[-1, 1]` at odd degrees is at most a geometric term plus a constant times `1/n²` -/
example {ext : Externals ℝ} (hext : ExactSolver ext) : ∃ K c : ℝ, 0 ≤ K ∧ |c - 1| ≤ 6e-12 ∧ ∀ n : ℕ, 1 < n → n % 2 = 1 → ∃ r : JacobiRule ℝ,
    GaussJacobi.new .checked ext n ⟨1⟩ ⟨0⟩ = some r ∧
    |(AnyRule.jacobi r).value (-1) 1 Real.exp - c * ∫ t in (-1 : ℝ)..1, Real.exp t * ((1 - t) ^ (1 : ℝ) * (1 + t) ^ (0 : ℝ))| ≤
      c * (4 * Real.exp 1.25 * 2⁻¹ ^ (2 * n - 1) * ∫ x in Set.Ioo (-1 : ℝ) 1, (1 - x) ^ (1 : ℝ) * (1 + x) ^ (0 : ℝ)) + 12 * (K / (n : ℝ) ^ (2 : ℝ)) := by
  obtain ⟨K, c, hK, hc, h⟩ := C103_rate hext .checked (α := ⟨1⟩) (β := ⟨0⟩) (by norm_num) (by norm_num) (by norm_num) (by norm_num)
  refine ⟨K, c, hK, hc, fun n hn hodd => ?_⟩
  obtain ⟨r, hr, h⟩ := h n hn hodd
  refine ⟨r, hr, ?_⟩
  have ha := analytic_exp 2
  rw [show ((2 : ℝ) + 2⁻¹) / 2 = 1.25 by norm_num] at ha
  have hLip : ∀ s ∈ Set.uIcc (-1 : ℝ) 1, ∀ t ∈ Set.uIcc (-1 : ℝ) 1, |Real.exp s - Real.exp t| ≤ 3 * |s - t| := by
    intro s hs t ht
    rw [Set.uIcc_of_le (by norm_num)] at hs ht
    refine Convex.norm_image_sub_le_of_norm_deriv_le (f := Real.exp) (fun x _ => Real.differentiableAt_exp) (fun x hx => ?_) (convex_Icc (-1) 1) ht hs
    rw [Real.deriv_exp, Real.norm_eq_abs, abs_of_pos (Real.exp_pos x)]
    exact (Real.exp_le_exp.2 hx.2).trans (by linarith [Real.exp_one_lt_d9])
  have h1 := h (-1) 1 2 (Real.exp 1.25) 3 Real.exp (by norm_num) (by norm_num) ha hLip
  have e : ∀ t : ℝ, (2 * t - -1 - 1) / (1 - -1) = t := fun t => by ring
  simp only [e] at h1
  rw [show 1 + min 1 (min (2 * FiniteAboveNegOne.get (⟨1⟩ : FiniteAboveNegOne ℝ) + 2) (2 * FiniteAboveNegOne.get (⟨0⟩ : FiniteAboveNegOne ℝ) + 2)) = (2 : ℝ) by
    norm_num [FiniteAboveNegOne.get]] at h1
  refine h1.trans (le_of_eq ?_)
  norm_num [FiniteAboveNegOne.get]

end GaussQuad.Props
