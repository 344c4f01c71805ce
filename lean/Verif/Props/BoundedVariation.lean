import Verif.Proofs.VariationPerturbed
import Verif.Proofs.ChristoffelBound
import Verif.Props.MonotoneError
import Verif.Props.LegendreAccuracy
import Verif.Props.LegendreLarge

/-!
# C75: integrands of bounded variation

The error is at most the total variation of the integrand times (a multiple of) the largest weight, and the largest weight is `O(1/n)`.  The integrand need not be continuous.
`/repo/src/*/mod.rs`: `integrate`.
-/

namespace GaussQuad.Props
open Polynomial Spec FloatOps MeasureTheory

/-- C75 for Gauss-Hermite -/
theorem C75_hermite {ext : Externals ℝ} (hext : ExactSolver ext) {n : ℕ} (hn : 0 < n) :
    ∃ r : Rule ℝ, GaussHermite.new ext n = some r ∧ ∀ (f : ℝ → ℝ) (W a b : ℝ), BoundedVariationOn f Set.univ → (∀ q ∈ r.asNodeWeightPairs, q.2 ≤ W) →
      Integrable (fun x => f x * Real.exp (-x ^ 2)) ∧
      |(AnyRule.hermite r).value a b f - ∫ x, f x * Real.exp (-x ^ 2)| ≤ (eVariationOn f Set.univ).toReal * W := by
  obtain ⟨r, h1, h2⟩ := hermite_gauss hext hn
  refine ⟨r, h1, fun f W a b hf hW => ?_⟩
  have hne : r.nodeWeightPairs ≠ [] := by rw [← List.length_pos_iff, h2.length]; exact hn
  obtain ⟨q, hq⟩ := List.exists_mem_of_ne_nil _ hne
  have hW0 : 0 ≤ W := (gauss_weights_pos one_pos h2.exact' posDef_hermite q hq).le.trans (hW q hq)
  have h := gauss_bv MeasurableSet.univ hermW_meas (fun x _ => (hermW_pos x).le) integrable_hermite one_pos posDef_hermite h2.exact' (fun _ _ => Set.mem_univ _) hW0 hW Set.univ_nonempty hf
  rw [IntegrableOn, Measure.restrict_univ, one_mul] at h
  exact ⟨h.1, by rw [value_real]; exact h.2⟩

/-- C75 for Gauss-Laguerre -/
theorem C75_laguerre {ext : Externals ℝ} (hext : ExactSolver ext) {n : ℕ} (hn : 0 < n) {α : FiniteAboveNegOne ℝ} (hα : -1 < α.get) :
    ∃ (r : LaguerreRule ℝ) (c : ℝ), GaussLaguerre.new ext n α = some r ∧ |c - 1| ≤ 2e-12 ∧ ∀ (f : ℝ → ℝ) (W a b : ℝ),
      BoundedVariationOn f (Set.Ioi 0) → (∀ q ∈ r.asNodeWeightPairs, q.2 ≤ W) → IntegrableOn (fun x => f x * (x ^ α.get * Real.exp (-x))) (Set.Ioi 0) ∧
      |(AnyRule.laguerre r).value a b f - c * ∫ x in Set.Ioi 0, f x * (x ^ α.get * Real.exp (-x))| ≤ (eVariationOn f (Set.Ioi 0)).toReal * W := by
  obtain ⟨r, h1, -, h2⟩ := laguerre_gauss hext hn α hα
  have hc := laguerre_factor_pos hα
  refine ⟨r, gamma (α.get + 1) / Real.Gamma (α.get + 1), h1, C49_gamma_accurate fun m hm => ?_, fun f W a b hf hW => ?_⟩
  · have : (0 : ℝ) ≤ m := Nat.cast_nonneg m
    linarith
  have hne : r.nodeWeightPairs ≠ [] := by rw [← List.length_pos_iff, h2.length]; exact hn
  obtain ⟨q, hq⟩ := List.exists_mem_of_ne_nil _ hne
  have hW0 : 0 ≤ W := (gauss_weights_pos hc h2.exact' (posDef_laguerre hα) q hq).le.trans (hW q hq)
  have h := gauss_bv measurableSet_Ioi (lagW_meas α.get) (fun x hx => (lagW_pos α.get hx).le) (integrable_laguerre hα) hc (posDef_laguerre hα) h2.exact'
    (fun q hq => gauss_nodes_gt hc h2.exact' (posDef_laguerre hα) (fun x hx => (show (0 : ℝ) < x from hx).le) q hq) hW0 hW ⟨1, Set.mem_Ioi.2 one_pos⟩ hf
  exact ⟨h.1, by rw [value_real]; exact h.2⟩

/-! ### finite intervals -/

theorem affine_mem (a b : ℝ) : ∀ x ∈ Set.Icc (-1 : ℝ) 1, (b - a) / 2 * x + (a + b) / 2 ∈ Set.uIcc a b := fun x hx => by
  rcases le_total a b with h | h
  · rw [Set.uIcc_of_le h]
    constructor <;> nlinarith [hx.1, hx.2, mul_nonneg (sub_nonneg.2 h) (by linarith [hx.1] : 0 ≤ x + 1), mul_nonneg (sub_nonneg.2 h) (by linarith [hx.2] : 0 ≤ 1 - x)]
  · rw [Set.uIcc_of_ge h]
    constructor <;> nlinarith [hx.1, hx.2, mul_nonneg (sub_nonneg.2 h) (by linarith [hx.1] : 0 ≤ x + 1), mul_nonneg (sub_nonneg.2 h) (by linarith [hx.2] : 0 ≤ 1 - x)]

/-- the variation does not grow under the affine change of variables -/
theorem bv_transport {a b : ℝ} {f : ℝ → ℝ} (hf : BoundedVariationOn f (Set.uIcc a b)) {S : Set ℝ} (hS : S ⊆ Set.Icc (-1) 1) :
    BoundedVariationOn (fun x => f ((b - a) / 2 * x + (a + b) / 2)) S ∧
    (eVariationOn (fun x => f ((b - a) / 2 * x + (a + b) / 2)) S).toReal ≤ (eVariationOn f (Set.uIcc a b)).toReal := by
  have h : eVariationOn (fun x => f ((b - a) / 2 * x + (a + b) / 2)) S ≤ eVariationOn f (Set.uIcc a b) := by
    rcases le_total a b with h | h
    · exact eVariationOn.comp_le_of_monotoneOn f (fun x => (b - a) / 2 * x + (a + b) / 2) (fun x _ y _ hxy => by simp only; nlinarith [mul_nonneg (sub_nonneg.2 h) (sub_nonneg.2 hxy)])
        (fun x hx => affine_mem a b x (hS hx))
    · exact eVariationOn.comp_le_of_antitoneOn f (fun x => (b - a) / 2 * x + (a + b) / 2) (fun x _ y _ hxy => by simp only; nlinarith [mul_nonneg (sub_nonneg.2 h) (sub_nonneg.2 hxy)])
        (fun x hx => affine_mem a b x (hS hx))
  exact ⟨ne_top_of_le_ne_top hf h, ENNReal.toReal_mono hf h⟩

/-- a Gauss rule on (-1, 1), moved to `[a, b]` -/
theorem interval_bv {L : List (ℝ × ℝ)} {w : ℝ → ℝ} {c : ℝ} (hwm : Measurable w) (hw : ∀ x ∈ Set.Ioo (-1 : ℝ) 1, 0 ≤ w x)
    (hint : ∀ p : ℝ[X], IntegrableOn (fun x => p.eval x * w x) (Set.Ioo (-1) 1)) (hc : 0 < c) (hpos : PosDef (Set.Ioo (-1) 1) w)
    (hex : ExactUpTo L (2 * L.length - 1) (Set.Ioo (-1) 1) w c) {W : ℝ} (hW0 : 0 ≤ W) (hW : ∀ q ∈ L, q.2 ≤ W) {a b : ℝ} (hab : a ≠ b) {f : ℝ → ℝ}
    (hf : BoundedVariationOn f (Set.uIcc a b)) :
    |(b - a) / 2 * quad L (fun x => f ((b - a) / 2 * x + (a + b) / 2)) - c * ∫ t in a..b, f t * w ((2 * t - a - b) / (b - a))| ≤
      |b - a| / 2 * W * (eVariationOn f (Set.uIcc a b)).toReal := by
  obtain ⟨h1, h2⟩ := bv_transport hf Set.Ioo_subset_Icc_self
  have h := (gauss_bv measurableSet_Ioo hwm hw hint hc hpos hex
    (fun q hq => ⟨gauss_nodes_gt hc hex hpos (fun _ hx => hx.1.le) q hq, gauss_nodes_lt hc hex hpos (fun _ hx => hx.2.le) q hq⟩) hW0 hW ⟨0, by norm_num⟩ h1).2
  rw [interval_transport hab, ← mul_assoc c, mul_comm c, mul_assoc, ← mul_sub, abs_mul, abs_div, abs_two]
  calc _ ≤ |b - a| / 2 * ((eVariationOn f (Set.uIcc a b)).toReal * W) :=
        mul_le_mul_of_nonneg_left (h.trans (mul_le_mul_of_nonneg_right h2 hW0)) (by positivity)
    _ = _ := by ring

/-- C75 for both Gauss-Chebyshev rules -/
theorem C75_chebyshev (mode : Overflow) {n : ℕ} (hn : 0 < n) (hlt : n + 1 < 2 ^ 64) {a b : ℝ} (hab : a ≠ b) {f : ℝ → ℝ} (hf : BoundedVariationOn f (Set.uIcc a b)) :
    (∃ r : Rule ℝ, GaussChebyshevFirstKind.new mode n = some r ∧
      |(AnyRule.chebyshevFirst r).value a b f - ∫ t in a..b, f t * (1 / Real.sqrt (1 - ((2 * t - a - b) / (b - a)) ^ 2))| ≤
        Real.pi / (2 * n) * |b - a| * (eVariationOn f (Set.uIcc a b)).toReal) ∧
    (∃ r : Rule ℝ, GaussChebyshevSecondKind.new mode n = some r ∧
      |(AnyRule.chebyshevSecond r).value a b f - ∫ t in a..b, f t * Real.sqrt (1 - ((2 * t - a - b) / (b - a)) ^ 2)| ≤
        Real.pi / (2 * (n + 1)) * |b - a| * (eVariationOn f (Set.uIcc a b)).toReal) := by
  have hn' : (0 : ℝ) < n := by exact_mod_cast hn
  have hpi := Real.pi_pos
  refine ⟨⟨_, cheb1_new_eq hlt, ?_⟩, ⟨_, cheb2_new_eq hlt, ?_⟩⟩
  · have hW : ∀ q ∈ pairs1 n, q.2 ≤ Real.pi / n := fun q hq => by
      obtain ⟨i, -, rfl⟩ := List.mem_map.1 hq
      simp [GaussChebyshevFirstKind.pair]
    have h := interval_bv chebW1_meas chebW1_nonneg integrableOn_cheb1 one_pos posDef_cheb1 (exact1 hn) (by positivity) hW hab hf
    rw [value_gauss_quad rfl]
    rw [one_mul] at h
    refine h.trans (le_of_eq ?_)
    field_simp
  · have hW : ∀ q ∈ pairs2 n, q.2 ≤ Real.pi / (n + 1) := fun q hq => by
      obtain ⟨i, -, rfl⟩ := List.mem_map.1 hq
      simp only [GaussChebyshevSecondKind.pair, real_pi, real_mul, real_add, real_div, real_ofNat, real_cos, real_sin, real_lit_one]
      set s := Real.sin (Real.pi * (i : ℝ) * (1 / ((n : ℝ) + 1)))
      have hs : s * s ≤ 1 := by have := Real.sin_sq_le_one (Real.pi * (i : ℝ) * (1 / ((n : ℝ) + 1))); nlinarith
      have h0 : 0 ≤ Real.pi * (1 / ((n : ℝ) + 1)) := by positivity
      calc Real.pi * (1 / ((n : ℝ) + 1)) * s * s = Real.pi * (1 / ((n : ℝ) + 1)) * (s * s) := by ring
        _ ≤ Real.pi * (1 / ((n : ℝ) + 1)) * 1 := mul_le_mul_of_nonneg_left hs h0
        _ = _ := by ring
    have h := interval_bv chebW2_meas chebW2_nonneg integrableOn_cheb2 one_pos posDef_cheb2 (exact2 hn) (by positivity) hW hab hf
    rw [value_gauss_quad rfl]
    rw [one_mul] at h
    refine h.trans (le_of_eq ?_)
    field_simp

/-- the bound of C75 for the general branch of Gauss-Jacobi, with the factor of the weights spelled out -/
theorem jacobi_bv {ext : Externals ℝ} (hext : ExactSolver ext) {n : ℕ} (hn : 0 < n) {α β : FiniteAboveNegOne ℝ} (hα : -1 < α.get) (hβ : -1 < β.get)
    (hs : α.get + β.get ≠ -1) :
    ∃ r : JacobiRule ℝ, GaussJacobi.newGeneral ext n α β = some r ∧ |jacobiFactor α.get β.get - 1| ≤ 6e-12 ∧
      (-1 / 2 ≤ α.get → -1 / 2 ≤ β.get → ∀ q ∈ r.asNodeWeightPairs, q.2 ≤ jacobiFactor α.get β.get * 2 ^ (α.get + β.get + 1) * (4 * Real.pi / (2 * n - 1))) ∧
      ∀ (f : ℝ → ℝ) (W a b : ℝ), a ≠ b → BoundedVariationOn f (Set.uIcc a b) → (∀ q ∈ r.asNodeWeightPairs, q.2 ≤ W) →
      |(AnyRule.jacobi r).value a b f - jacobiFactor α.get β.get * ∫ t in a..b, f t * ((1 - (2 * t - a - b) / (b - a)) ^ α.get * (1 + (2 * t - a - b) / (b - a)) ^ β.get)| ≤
        |b - a| * W * (eVariationOn f (Set.uIcc a b)).toReal := by
  obtain ⟨r, L, h1, h2, hw, he, ho, -⟩ := jacobi_general hext hn hα hβ hs
  have hc := jacobiFactor_pos hα hβ hs
  have hLpos := gauss_weights_pos hc h2.exact' (posDef_jacobi hα hβ)
  have hne : L ≠ [] := by rw [← List.length_pos_iff, h2.length]; exact hn
  have hWiff : ∀ W : ℝ, (∀ q ∈ r.nodeWeightPairs, q.2 ≤ W) ↔ ∀ q ∈ L, q.2 ≤ W := fun W => by
    have : ∀ M : List (ℝ × ℝ), (∀ q ∈ M, q.2 ≤ W) ↔ ∀ y ∈ M.map (·.2), y ≤ W := fun M =>
      ⟨fun h y hy => by obtain ⟨q, hq, rfl⟩ := List.mem_map.1 hy; exact h q hq, fun h q hq => h _ (List.mem_map.2 ⟨q, hq, rfl⟩)⟩
    rw [this, hw, ← this]
  refine ⟨r, h1, C49_jacobi_factor hα hβ hs, fun ha hb => ?_, fun f W a b hab hf hW => ?_⟩
  · refine (hWiff _).2 fun q hq => ?_
    have h := gauss_weight_le hne hc (posDef_jacobi hα hβ) h2.exact' (integrable_jacobi hα hβ) (A := 2 ^ (α.get + β.get + 1)) (fun x hx => ?_) hq (jacobi_nodes hα hβ h2 hc _ hq)
    · rwa [h2.length] at h
    · have p1 : 0 < 1 - x := by linarith [hx.2]
      have p2 : 0 < 1 + x := by linarith [hx.1]
      have e : chebW1 x = (1 - x) ^ (-1 / 2 : ℝ) * (1 + x) ^ (-1 / 2 : ℝ) := by
        rw [chebW1, show 1 - x ^ 2 = (1 - x) * (1 + x) by ring, Real.sqrt_eq_rpow, Real.mul_rpow p1.le p2.le, one_div, mul_inv, ← Real.rpow_neg p1.le, ← Real.rpow_neg p2.le]
        norm_num
      have s1 : (1 - x) ^ α.get = (1 - x) ^ (α.get + 1 / 2) * (1 - x) ^ (-1 / 2 : ℝ) := by rw [← Real.rpow_add p1]; congr 1; ring
      have s2 : (1 + x) ^ β.get = (1 + x) ^ (β.get + 1 / 2) * (1 + x) ^ (-1 / 2 : ℝ) := by rw [← Real.rpow_add p2]; congr 1; ring
      have t1 : (1 - x) ^ (α.get + 1 / 2) ≤ 2 ^ (α.get + 1 / 2) := Real.rpow_le_rpow p1.le (by linarith) (by linarith)
      have t2 : (1 + x) ^ (β.get + 1 / 2) ≤ 2 ^ (β.get + 1 / 2) := Real.rpow_le_rpow p2.le (by linarith) (by linarith)
      rw [jacW, s1, s2, e]
      have e2 : (2 : ℝ) ^ (α.get + β.get + 1) = 2 ^ (α.get + 1 / 2) * 2 ^ (β.get + 1 / 2) := by rw [← Real.rpow_add two_pos]; congr 1; ring
      rw [e2]
      have u1 : 0 < (1 - x) ^ (-1 / 2 : ℝ) := Real.rpow_pos_of_pos p1 _
      have u2 : 0 < (1 + x) ^ (-1 / 2 : ℝ) := Real.rpow_pos_of_pos p2 _
      calc _ = ((1 - x) ^ (α.get + 1 / 2) * (1 + x) ^ (β.get + 1 / 2)) * ((1 - x) ^ (-1 / 2 : ℝ) * (1 + x) ^ (-1 / 2 : ℝ)) := by ring
        _ ≤ _ := mul_le_mul_of_nonneg_right (mul_le_mul t1 t2 (Real.rpow_nonneg p2.le _) (by positivity)) (mul_pos u1 u2).le
  have hWL := (hWiff W).1 hW
  obtain ⟨q, hq⟩ := List.exists_mem_of_ne_nil _ hne
  have hW0 : 0 ≤ W := (hLpos q hq).le.trans (hWL q hq)
  have hmain := interval_bv (jacW_meas _ _) (jacW_nonneg _ _) (integrable_jacobi hα hβ) hc (posDef_jacobi hα hβ) h2.exact' hW0 hWL hab hf
  have hdiff : |(b - a) / 2 * quad r.nodeWeightPairs (fun x => f ((b - a) / 2 * x + (a + b) / 2)) - (b - a) / 2 * quad L (fun x => f ((b - a) / 2 * x + (a + b) / 2))| ≤
      |b - a| / 2 * W * (eVariationOn f (Set.uIcc a b)).toReal := by
    rcases Nat.mod_two_eq_zero_or_one n with h | h
    · rw [he h, sub_self, abs_zero]; positivity
    · obtain ⟨hlt, e⟩ := ho h
      have hmem := List.getElem_mem hlt
      rw [e, ← mul_sub, quad_set_sub, abs_mul, abs_mul, abs_of_pos (hLpos _ hmem), abs_div, abs_two, mul_assoc (|b - a| / 2)]
      refine mul_le_mul_of_nonneg_left (mul_le_mul (hWL _ hmem) ?_ (abs_nonneg _) hW0) (by positivity)
      exact bv_abs_sub_le hf (affine_mem a b _ (by norm_num)) (affine_mem a b _ (Set.Ioo_subset_Icc_self (jacobi_nodes hα hβ h2 hc _ hmem)))
  rw [value_gauss_quad rfl]
  refine (abs_sub_le _ ((b - a) / 2 * quad L (fun x => f ((b - a) / 2 * x + (a + b) / 2))) _).trans ?_
  refine (add_le_add hdiff hmain).trans (le_of_eq ?_)
  ring

/-- C75 for the general branch of Gauss-Jacobi, at every degree (for odd degrees the middle node is overwritten with 0, `/repo/src/jacobi/mod.rs` l.135-137) -/
theorem C75_jacobi {ext : Externals ℝ} (hext : ExactSolver ext) {n : ℕ} (hn : 0 < n) {α β : FiniteAboveNegOne ℝ} (hα : -1 < α.get) (hβ : -1 < β.get)
    (hs : α.get + β.get ≠ -1) :
    ∃ (r : JacobiRule ℝ) (c : ℝ), GaussJacobi.newGeneral ext n α β = some r ∧ |c - 1| ≤ 6e-12 ∧
      (-1 / 2 ≤ α.get → -1 / 2 ≤ β.get → ∀ q ∈ r.asNodeWeightPairs, q.2 ≤ c * 2 ^ (α.get + β.get + 1) * (4 * Real.pi / (2 * n - 1))) ∧
      ∀ (f : ℝ → ℝ) (W a b : ℝ), a ≠ b → BoundedVariationOn f (Set.uIcc a b) → (∀ q ∈ r.asNodeWeightPairs, q.2 ≤ W) →
      |(AnyRule.jacobi r).value a b f - c * ∫ t in a..b, f t * ((1 - (2 * t - a - b) / (b - a)) ^ α.get * (1 + (2 * t - a - b) / (b - a)) ^ β.get)| ≤
        |b - a| * W * (eVariationOn f (Set.uIcc a b)).toReal := by
  obtain ⟨r, h⟩ := jacobi_bv hext hn hα hβ hs
  exact ⟨r, _, h⟩

theorem jacW_zero : jacW 0 0 = fun _ => 1 := by ext x; simp [jacW]

/-- C75 for Gauss-Legendre; `K` bounds the integrand (the crate's nodes and weights differ from the true ones in the last digits, C38 and C50) -/
theorem C75_legendre (mode : Overflow) {n : ℕ} (hn : 0 < n) (hlt : n + 1 < 2 ^ 64) :
    ∃ r : Rule ℝ, GaussLegendre.new mode n = some r ∧ ∀ (f : ℝ → ℝ) (K a b : ℝ), BoundedVariationOn f (Set.uIcc a b) → (∀ x ∈ Set.uIcc a b, |f x| ≤ K) →
      |(AnyRule.legendre r).value a b f - ∫ t in a..b, f t| ≤
        |b - a| / 2 * ((eVariationOn f (Set.uIcc a b)).toReal * (4 * Real.pi / (2 * n - 1) + 2 / 10 ^ 16) + 5 / 10 ^ 15 * K) := by
  have hn1 : (1 : ℝ) ≤ n := by exact_mod_cast hn
  have hz : (-1 : ℝ) < 0 := by norm_num
  have hint : ∀ p : ℝ[X], IntegrableOn (fun x => p.eval x * (1 : ℝ)) (Set.Ioo (-1) 1) := fun p => by
    have := integrable_jacobi hz hz p; rwa [jacW_zero] at this
  have hpos : PosDef (Set.Ioo (-1) 1) (fun _ => 1) := by have := posDef_jacobi hz hz; rwa [jacW_zero] at this
  obtain ⟨r, hr, -, hin, -⟩ := C37_legendre mode hn hlt
  have hsum : ∀ G : List (ℝ × ℝ), ExactUpTo G (2 * n - 1) (Set.Ioo (-1) 1) (fun _ => 1) 1 → (G.map (·.2)).sum = 2 := fun G hG => by
    have := hG 1 (by simp)
    simp only [eval_one, quad_const, weightIntegral, one_mul] at this
    rw [this]
    simp; norm_num
  have data : ∃ (G : List (ℝ × ℝ)) (ε : ℝ × ℝ → ℝ), G.length = n ∧ (∀ q ∈ G, q.1 ∈ Set.Ioo (-1 : ℝ) 1) ∧ ExactUpTo G (2 * n - 1) (Set.Ioo (-1) 1) (fun _ => 1) 1 ∧
      List.Forall₂ (fun p q => |p.1 - q.1| ≤ 2 / 10 ^ 16 ∧ |p.2 - q.2| ≤ ε q) r.asNodeWeightPairs G ∧ (G.map ε).sum ≤ 5 / 10 ^ 15 := by
    rcases le_or_gt n 100 with h | h
    · obtain ⟨r', hr', G, hlen, -, hG, hex, hclose⟩ := C38_tables mode hn h
      rw [hr] at hr'
      obtain rfl := Option.some.inj hr'
      refine ⟨G, fun _ => 5 / 10 ^ 17, hlen, fun q hq => (hG q hq).2, hex, hclose, ?_⟩
      have : (n : ℝ) ≤ 100 := by exact_mod_cast h
      simp only [List.map_const', List.sum_replicate, hlen, nsmul_eq_mul]
      linarith
    · obtain ⟨r', hr', G, hlen, -, hG, hex, hclose⟩ := C50_asymptotic mode h hlt
      rw [hr] at hr'
      obtain rfl := Option.some.inj hr'
      refine ⟨G, fun q => 1 / 10 ^ 15 * q.2, hlen, fun q hq => ⟨(hG q hq).2.1, (hG q hq).2.2.1⟩, hex, hclose.imp fun p q h => ⟨h.1.trans (by norm_num), h.2⟩, ?_⟩
      rw [List.sum_map_mul_left, hsum G hex]
      norm_num
  obtain ⟨G, ε, hlen, hG, hex, hclose, hε⟩ := data
  have hex' : ExactUpTo G (2 * G.length - 1) (Set.Ioo (-1) 1) (fun _ => 1) 1 := by rwa [hlen]
  have hGne : G ≠ [] := by rw [← List.length_pos_iff, hlen]; exact hn
  have hW : ∀ q ∈ G, q.2 ≤ 4 * Real.pi / (2 * n - 1) := fun q hq => by
    have h := gauss_weight_le hGne one_pos hpos hex' hint (A := 1) (fun x hx => ?_) hq (hG q hq)
    · rwa [hlen, one_mul, one_mul] at h
    · rw [one_mul, chebW1, le_div_iff₀ (Real.sqrt_pos.2 (by nlinarith [hx.1, hx.2])), one_mul]
      exact Real.sqrt_le_one.2 (by nlinarith [sq_nonneg x])
  refine ⟨r, hr, fun f K a b hf hK => ?_⟩
  have hK0 : 0 ≤ K := (abs_nonneg _).trans (hK a Set.left_mem_uIcc)
  have hW0 : 0 ≤ 4 * Real.pi / (2 * n - 1) := div_nonneg (by have := Real.pi_pos; linarith) (by linarith)
  obtain ⟨h1, h2⟩ := bv_transport hf (S := Set.Icc (-1) 1) subset_rfl
  have h := perturbed_bv' hint hpos hex' hG hW0 hW (by norm_num) hclose
    (fun p hp => ⟨(hin p hp).1.le, (hin p hp).2.1.le⟩) h1 (fun x hx => hK _ (affine_mem a b x hx))
  rw [value_gauss_quad rfl]
  have ei : ∫ t in a..b, f t = (b - a) / 2 * ∫ x in (-1 : ℝ)..1, f ((b - a) / 2 * x + (a + b) / 2) := by
    have := intervalIntegral.smul_integral_comp_mul_add (a := (-1 : ℝ)) (b := 1) f ((b - a) / 2) ((a + b) / 2)
    rw [smul_eq_mul] at this
    rw [this]
    congr 1 <;> ring
  rw [ei, ← mul_sub, abs_mul, abs_div, abs_two]
  refine mul_le_mul_of_nonneg_left (h.trans (add_le_add (mul_le_mul_of_nonneg_right h2 (by positivity)) (mul_le_mul_of_nonneg_right hε hK0))) (by positivity)

/-- C75 for the Newton-Cotes rules -/
theorem C75_newton_cotes {f : ℝ → ℝ} {a b : ℝ} (hf : BoundedVariationOn f (Set.uIcc a b)) (r : NodeRule) :
    |(∫ x in a..b, f x) - (AnyRule.midpoint r).value a b f| ≤ |b - a| / (2 * r.degree) * (eVariationOn f (Set.uIcc a b)).toReal ∧
    |(∫ x in a..b, f x) - (AnyRule.trapezoid r).value a b f| ≤ |b - a| / (2 * r.degree) * (eVariationOn f (Set.uIcc a b)).toReal ∧
    |(∫ x in a..b, f x) - (AnyRule.simpson r).value a b f| ≤ |b - a| / (3 * r.degree) * (eVariationOn f (Set.uIcc a b)).toReal := by
  obtain ⟨p, q, m₁, M₁, m₂, M₂, hp, hq, e, b1, b2, hm1, hm2, hV⟩ := bv_split hf ⟨a, Set.left_mem_uIcc⟩
  have hi : (∫ x in a..b, f x) = (∫ x in a..b, p x) - ∫ x in a..b, q x := by
    rw [funext e, intervalIntegral.integral_sub hp.intervalIntegrable hq.intervalIntegrable]
  have hv : ∀ R : AnyRule ℝ, R.value a b f = R.value a b p - R.value a b q := fun R => by
    have := C18_linear R a b 1 (-1) p q
    rw [show f = fun x => 1 * p x + -1 * q x from funext fun x => by rw [e]; ring, this]; ring
  have hpq : |p b - p a| + |q b - q a| ≤ (eVariationOn f (Set.uIcc a b)).toReal := by
    have hr : Set.right_mem_uIcc (a := a) (b := b) = Set.right_mem_uIcc := rfl
    have c1 := b1 a Set.left_mem_uIcc
    have c2 := b1 b Set.right_mem_uIcc
    have c3 := b2 a Set.left_mem_uIcc
    have c4 := b2 b Set.right_mem_uIcc
    have d1 : |p b - p a| ≤ M₁ - m₁ := abs_le.2 ⟨by linarith, by linarith⟩
    have d2 : |q b - q a| ≤ M₂ - m₂ := abs_le.2 ⟨by linarith, by linarith⟩
    linarith
  have main : ∀ (R : AnyRule ℝ) (κ : ℝ), 0 ≤ κ → |(∫ x in a..b, p x) - R.value a b p| ≤ κ * |p b - p a| → |(∫ x in a..b, q x) - R.value a b q| ≤ κ * |q b - q a| →
      |(∫ x in a..b, f x) - R.value a b f| ≤ κ * (eVariationOn f (Set.uIcc a b)).toReal := fun R κ hκ h1 h2 => by
    rw [hi, hv]
    have hb := abs_sub ((∫ x in a..b, p x) - R.value a b p) ((∫ x in a..b, q x) - R.value a b q)
    calc _ = |((∫ x in a..b, p x) - R.value a b p) - ((∫ x in a..b, q x) - R.value a b q)| := by congr 1; ring
      _ ≤ κ * (|p b - p a| + |q b - q a|) := by linarith
      _ ≤ _ := mul_le_mul_of_nonneg_left hpq hκ
  obtain ⟨u1, u2, u3⟩ := C73_newton_cotes (Or.inl hp) r
  obtain ⟨v1, v2, v3⟩ := C73_newton_cotes (Or.inl hq) r
  exact ⟨main _ _ (by positivity) u1 v1, main _ _ (by positivity) u2 v2, main _ _ (by positivity) u3 v3⟩

/-! ### examples -/

theorem bv_abs (a b : ℝ) (hab : a ≤ b) : BoundedVariationOn (fun x : ℝ => |x|) (Set.Icc a b) ∧ (eVariationOn (fun x : ℝ => |x|) (Set.Icc a b)).toReal ≤ b - a := by
  have hl : LipschitzOnWith 1 (fun x : ℝ => |x|) Set.univ := LipschitzOnWith.of_dist_le_mul fun x _ y _ => by
    rw [Real.dist_eq, Real.dist_eq, NNReal.coe_one, one_mul]; exact abs_abs_sub_abs_le x y
  have h := hl.comp_eVariationOn_le (g := id) (s := Set.Icc a b) (Set.mapsTo_univ _ _)
  rw [eVariationOn_id_Icc, ENNReal.coe_one, one_mul] at h
  exact ⟨ne_top_of_le_ne_top ENNReal.ofReal_ne_top h, ENNReal.toReal_le_of_le_ofReal (by linarith) h⟩

theorem bv_step (s : Set ℝ) : BoundedVariationOn step s ∧ (eVariationOn step s).toReal ≤ 1 := by
  have h : eVariationOn step s ≤ ENNReal.ofReal 1 := by
    rw [eVariationOn.eq_biSup_inter_Icc]
    refine iSup₂_le fun q hq => ?_
    refine ((step_mono.monotoneOn s).eVariationOn_le hq.1 hq.2.1).trans (ENNReal.ofReal_le_ofReal ?_)
    linarith [(step_range q.1).1, (step_range q.2).2]
  exact ⟨ne_top_of_le_ne_top ENNReal.ofReal_ne_top h, ENNReal.toReal_le_of_le_ofReal zero_le_one h⟩

/-- `∫ |x|` over `[-1, 1]` by Gauss-Legendre with 50 nodes and by Simpson with 50 panels -/
example : ∃ r : Rule ℝ, GaussLegendre.new .checked 50 = some r ∧ |(AnyRule.legendre r).value (-1) 1 (fun x => |x|) - ∫ t in (-1 : ℝ)..1, abs t| ≤ 0.26 := by
  obtain ⟨r, hr, h⟩ := C75_legendre .checked (n := 50) (by norm_num) (by norm_num)
  obtain ⟨h1, h2⟩ := bv_abs (-1) 1 (by norm_num)
  have e : Set.uIcc (-1 : ℝ) 1 = Set.Icc (-1) 1 := Set.uIcc_of_le (by norm_num)
  have h := h (fun x => |x|) 1 (-1) 1 (by rwa [e]) (fun x hx => by rw [e] at hx; simpa using abs_le.2 hx)
  rw [e] at h
  refine ⟨r, hr, h.trans ?_⟩
  have hp := Real.pi_lt_d2
  have hp0 := Real.pi_pos
  rw [show |(1 : ℝ) - -1| / 2 = 1 by rw [abs_of_pos (by norm_num)]; norm_num, one_mul]
  have : (eVariationOn (fun x : ℝ => |x|) (Set.Icc (-1) 1)).toReal * (4 * Real.pi / (2 * (50 : ℕ) - 1) + 2 / 10 ^ 16) ≤ 2 * (4 * Real.pi / (2 * (50 : ℕ) - 1) + 2 / 10 ^ 16) :=
    mul_le_mul_of_nonneg_right (by linarith) (by norm_num; positivity)
  push_cast at this ⊢
  linarith

example (r : NodeRule) (h : r.degree = 50) : |(∫ x in (-1 : ℝ)..1, abs x) - (AnyRule.simpson r).value (-1) 1 (fun x => |x|)| ≤ 2 / 75 := by
  obtain ⟨h1, h2⟩ := bv_abs (-1) 1 (by norm_num)
  have e : Set.uIcc (-1 : ℝ) 1 = Set.Icc (-1) 1 := Set.uIcc_of_le (by norm_num)
  have h3 := (C75_newton_cotes (a := -1) (b := 1) (by rwa [e]) r).2.2
  rw [e, h] at h3
  refine h3.trans ?_
  rw [show |(1 : ℝ) - -1| = 2 by rw [abs_of_pos (by norm_num)]; norm_num]
  push_cast
  linarith

/-- rules with an integrand that jumps -/
example : ∃ ext : Externals ℝ, ExactSolver ext ∧ ∃ r : Rule ℝ, GaussHermite.new ext 9 = some r ∧ ∀ W, (∀ q ∈ r.asNodeWeightPairs, q.2 ≤ W) → 0 ≤ W →
    |(AnyRule.hermite r).value 0 0 step - ∫ x, step x * Real.exp (-x ^ 2)| ≤ W := by
  obtain ⟨r, h1, h2⟩ := C75_hermite exactSolver_exists (n := 9) (by norm_num)
  refine ⟨_, exactSolver_exists, r, h1, fun W hW hW0 => (h2 step W 0 0 (bv_step _).1 hW).2.trans ?_⟩
  simpa using mul_le_mul_of_nonneg_right (bv_step Set.univ).2 hW0

example : ∃ ext : Externals ℝ, ExactSolver ext ∧ ∃ (r : LaguerreRule ℝ) (c : ℝ), GaussLaguerre.new ext 9 ⟨1 / 2⟩ = some r ∧ |c - 1| ≤ 2e-12 ∧ ∀ W, (∀ q ∈ r.asNodeWeightPairs, q.2 ≤ W) →
    0 ≤ W → |(AnyRule.laguerre r).value 0 0 step - c * ∫ x in Set.Ioi 0, step x * (x ^ (1 / 2 : ℝ) * Real.exp (-x))| ≤ W := by
  obtain ⟨r, c, h1, hc, h2⟩ := C75_laguerre exactSolver_exists (n := 9) (by norm_num) (α := ⟨1 / 2⟩) (by norm_num [FiniteAboveNegOne.get])
  refine ⟨_, exactSolver_exists, r, c, h1, hc, fun W hW hW0 => (h2 step W 0 0 (bv_step _).1 hW).2.trans ?_⟩
  simpa using mul_le_mul_of_nonneg_right (bv_step (Set.Ioi 0)).2 hW0

example : ∃ r : Rule ℝ, GaussChebyshevFirstKind.new .checked 1000 = some r ∧
    |(AnyRule.chebyshevFirst r).value (-1) 1 step - ∫ t in (-1 : ℝ)..1, step t * (1 / Real.sqrt (1 - ((2 * t - -1 - 1) / (1 - -1)) ^ 2))| ≤ Real.pi / 1000 := by
  obtain ⟨r, h1, h2⟩ := (C75_chebyshev .checked (n := 1000) (by norm_num) (by norm_num) (a := -1) (b := 1) (by norm_num) (bv_step _).1).1
  refine ⟨r, h1, h2.trans ?_⟩
  have hp := Real.pi_pos
  have h := mul_le_mul_of_nonneg_left (bv_step (Set.uIcc (-1) 1)).2 (show 0 ≤ Real.pi / (2 * (1000 : ℕ)) * |(1 : ℝ) - -1| by positivity)
  refine h.trans (le_of_eq ?_)
  rw [abs_of_pos (by norm_num)]; push_cast; ring

/-- Gauss-Jacobi with parameters `(1, 0)` and 1000 nodes, the step over `[-1, 1]` -/
example : ∃ ext : Externals ℝ, ExactSolver ext ∧ ∃ (r : JacobiRule ℝ) (c : ℝ), GaussJacobi.newGeneral ext 1000 ⟨1⟩ ⟨0⟩ = some r ∧ |c - 1| ≤ 6e-12 ∧
    |(AnyRule.jacobi r).value (-1) 1 step - c * ∫ t in (-1 : ℝ)..1, step t * ((1 - (2 * t - -1 - 1) / (1 - -1)) ^ (1 : ℝ) * (1 + (2 * t - -1 - 1) / (1 - -1)) ^ (0 : ℝ))| ≤ 0.06 := by
  obtain ⟨r, c, h1, hc, h2, h3⟩ := C75_jacobi exactSolver_exists (n := 1000) (by norm_num) (α := ⟨1⟩) (β := ⟨0⟩) (by norm_num [FiniteAboveNegOne.get]) (by norm_num [FiniteAboveNegOne.get])
    (by norm_num [FiniteAboveNegOne.get])
  refine ⟨_, exactSolver_exists, r, c, h1, hc, (h3 step _ (-1) 1 (by norm_num) (bv_step _).1 (h2 (by norm_num [FiniteAboveNegOne.get]) (by norm_num [FiniteAboveNegOne.get]))).trans ?_⟩
  have hp := Real.pi_pos
  have hp2 := Real.pi_lt_d2
  have hc' := abs_le.1 hc
  have e : (2 : ℝ) ^ ((1 : ℝ) + 0 + 1) = 4 := by rw [show (1 : ℝ) + 0 + 1 = ((2 : ℕ) : ℝ) by norm_num, Real.rpow_natCast]; norm_num
  simp only [FiniteAboveNegOne.get, e]
  have h0 : 0 ≤ |(1 : ℝ) - -1| * (c * 4 * (4 * Real.pi / (2 * (1000 : ℕ) - 1))) := by
    have : 0 ≤ c := by linarith
    have : (0 : ℝ) ≤ 2 * (1000 : ℕ) - 1 := by norm_num
    positivity
  refine (mul_le_mul_of_nonneg_left (bv_step (Set.uIcc (-1) 1)).2 h0).trans ?_
  rw [abs_of_pos (by norm_num)]; push_cast
  nlinarith

end GaussQuad.Props
