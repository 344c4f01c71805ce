import Verif.Proofs.SeriesError
import Verif.Props.Aliasing
import Verif.Props.Modulus

/-!
# C116: the error by the Chebyshev coefficients of order 2n and above

`/repo/src/legendre/mod.rs:60-131`, `/repo/src/jacobi/mod.rs:75-199`, `/repo/src/chebyshev/mod.rs:150-217`.
-/

namespace GaussQuad.Props
open Polynomial Spec FloatOps MeasureTheory

theorem transport_error {a b κ E : ℝ} (hab : a < b) {f w : ℝ → ℝ} {L : List (ℝ × ℝ)}
    (h : |quad L (fun x => f ((b - a) / 2 * x + (a + b) / 2)) - κ * ∫ x in Set.Ioo (-1 : ℝ) 1, f ((b - a) / 2 * x + (a + b) / 2) * w x| ≤ E) :
    |(b - a) / 2 * quad L (fun x => f ((b - a) / 2 * x + (a + b) / 2)) - κ * ∫ t in a..b, f t * w ((2 * t - a - b) / (b - a))| ≤ (b - a) / 2 * E := by
  rw [integral_transported hab f w, ← setIntegral_Ioo_eq_interval (by norm_num)]
  rw [mul_left_comm κ, ← mul_sub, abs_mul, abs_of_pos (by linarith)]
  exact mul_le_mul_of_nonneg_left h (by linarith)

/-- C116 for Gauss-Legendre: with exact nodes the factor would be `2 + 2 / (4 n² - 1)`; the finite sum is the effect of the tabulated or asymptotic rule -/
theorem C116_legendre (mode : Overflow) {n : ℕ} (hn : 0 < n) (hlt : n + 1 < 2 ^ 64) :
    ∃ r : Rule ℝ, GaussLegendre.new mode n = some r ∧ ∀ (a b : ℝ) (f : ℝ → ℝ) (c : ℕ → ℝ), a < b → IsChebyshevSeries f a b c →
      |(AnyRule.legendre r).value a b f - ∫ t in a..b, f t| ≤
        (b - a) / 2 * (∑ m ∈ Finset.range (2 * n), (5e-15 + 4e-16 * (m : ℝ) ^ 2) * |c m| + (2.0001 + 2 / ((2 * n : ℝ) ^ 2 - 1)) * ∑' k : ℕ, |c (2 * n + k)|) := by
  obtain ⟨r, hr, G, hlen, hex, hin, hclose⟩ := legendre_true_rule mode hn hlt
  obtain ⟨r', hr', -, hpos', -⟩ := C37_legendre mode hn hlt
  obtain rfl : r = r' := Option.some.inj (hr.symm.trans hr')
  refine ⟨r, hr, fun a b f c hab hf => ?_⟩
  have hmass : (∫ _ in Set.Ioo (-1 : ℝ) 1, (1 : ℝ)) = 2 := by simp; norm_num
  have hex' : ExactUpTo G (2 * G.length - 1) (Set.Ioo (-1) 1) (fun _ => 1) 1 := by rw [hlen]; exact hex
  have hGm : (G.map Prod.snd).sum = 2 := by rw [gauss_mass hex', hmass, one_mul]
  have hrm : (r.asNodeWeightPairs.map Prod.snd).sum ≤ 2.0001 := by
    have h1 := hclose (fun _ => 1) 1 0 (by simp) (by simp) le_rfl
    have h2 : ∀ L : List (ℝ × ℝ), quad L (fun _ => 1) = (L.map Prod.snd).sum := fun L => by simp [quad]
    rw [h2, h2, hGm] at h1
    have := (abs_le.1 h1).2
    norm_num at this ⊢
    linarith
  have hn' : (1 : ℝ) ≤ n := by exact_mod_cast hn
  have h := series_error (κ := 1) (K := 2.0001 + 2 / ((2 * n : ℝ) ^ 2 - 1)) (N := 2 * n) (e := fun m => 5e-15 + 4e-16 * (m : ℝ) ^ 2) (w := fun _ => 1) (fun _ _ => zero_le_one)
    integrable_one hf.1 (series_transport hab hf) (fun p hp => Set.Ioo_subset_Icc_self (hin p hp)) (fun m hm => ?_) (fun m hm => ?_)
  · have := transport_error hab h
    simp only [one_mul, mul_one] at this
    rw [value_gauss_quad rfl]
    exact this
  · rw [← hex _ ((natDegree_T_le m).trans (by omega))]
    have := hclose (fun x => (Chebyshev.T ℝ m).eval x) 1 ((m : ℝ) ^ 2) (fun x hx => abs_T_le hx.1.le hx.2.le m)
      (fun x hx y hy => abs_T_sub_le m (Set.Ioo_subset_Icc_self hx) (Set.Ioo_subset_Icc_self hy)) (by positivity)
    linarith
  · have h1 := abs_quad_le (L := r.asNodeWeightPairs) (f := fun x => (Chebyshev.T ℝ m).eval x) (ε := 1) (fun p hp => (hpos' p hp).2.2.le)
      fun p hp => abs_T_le (hin p hp).1.le (hin p hp).2.le m
    have h2 := abs_integral_T m (by omega)
    have h3 : (2 : ℝ) / ((m : ℝ) ^ 2 - 1) ≤ 2 / ((2 * n : ℝ) ^ 2 - 1) := by
      have : (2 * n : ℝ) ≤ m := by exact_mod_cast hm
      refine div_le_div_of_nonneg_left (by norm_num) (by nlinarith) (by nlinarith)
    rw [one_mul]
    refine (abs_sub _ _).trans ?_
    linarith

/-- C116 for Gauss-Jacobi, up to the gamma factor `κ` of the crate's weights -/
theorem C116_jacobi {ext : Externals ℝ} (hext : ExactSolver ext) (mode : Overflow) {n : ℕ} (hn : 0 < n) {α β : FiniteAboveNegOne ℝ} (hα : -1 < α.get) (hβ : -1 < β.get)
    (hs : α.get + β.get ≠ -1) (hd : ¬ Delegated α.get β.get) (hodd : n % 2 = 0 ∨ n = 1 ∨ α = β) :
    ∃ (r : JacobiRule ℝ) (κ : ℝ), GaussJacobi.new mode ext n α β = some r ∧ |κ - 1| ≤ 6e-12 ∧
      ∀ (a b : ℝ) (f : ℝ → ℝ) (c : ℕ → ℝ), a < b → IsChebyshevSeries f a b c →
      |(AnyRule.jacobi r).value a b f - κ * ∫ t in a..b, f t * ((1 - (2 * t - a - b) / (b - a)) ^ α.get * (1 + (2 * t - a - b) / (b - a)) ^ β.get)| ≤
        (b - a) / 2 * (2 * κ * (∫ x in Set.Ioo (-1 : ℝ) 1, (1 - x) ^ α.get * (1 + x) ^ β.get) * ∑' k : ℕ, |c (2 * n + k)|) := by
  obtain ⟨r, κ, hr, hκ, hκ1, he, hlen⟩ := jacobi_exact_rule hext mode hn hα hβ hs hd hodd
  refine ⟨r, κ, hr, hκ1, fun a b f c hab hf => ?_⟩
  have hex := exactUpTo_of_jacobiExact he
  have hex' : ExactUpTo r.nodeWeightPairs (2 * r.nodeWeightPairs.length - 1) (Set.Ioo (-1) 1) (jacW α.get β.get) κ := by rw [hlen]; exact hex
  have hpd := posDef_jacobi hα hβ
  have hin : ∀ p ∈ r.nodeWeightPairs, p.1 ∈ Set.Icc (-1 : ℝ) 1 := fun p hp =>
    ⟨(gauss_nodes_gt hκ hex' hpd (fun x hx => hx.1.le) p hp).le, (gauss_nodes_lt hκ hex' hpd (fun x hx => hx.2.le) p hp).le⟩
  have hw0 : ∀ x ∈ Set.Ioo (-1 : ℝ) 1, 0 ≤ jacW α.get β.get x := fun x hx => mul_nonneg (Real.rpow_nonneg (by linarith [hx.2]) _) (Real.rpow_nonneg (by linarith [hx.1]) _)
  have hint := integrable_jacobi hα hβ
  have hwi : IntegrableOn (jacW α.get β.get) (Set.Ioo (-1) 1) := by simpa using hint 1
  have h := series_error (κ := κ) (K := 2 * κ * ∫ x in Set.Ioo (-1 : ℝ) 1, jacW α.get β.get x) (N := 2 * n) (e := fun _ => 0) hw0 hint hf.1 (series_transport hab hf) hin
    (fun m hm => ?_) (fun m hm => ?_)
  · simp only [zero_mul, Finset.sum_const_zero, zero_add] at h
    rw [value_gauss_quad rfl]
    exact transport_error hab h
  · rw [hex _ ((natDegree_T_le m).trans (by omega)), sub_self, abs_zero]
  · have h1 := abs_quad_le (L := r.nodeWeightPairs) (f := fun x => (Chebyshev.T ℝ m).eval x) (ε := 1) (fun p hp => (gauss_weights_pos hκ hex' hpd p hp).le)
      fun p hp => abs_T_le (hin p hp).1 (hin p hp).2 m
    rw [gauss_mass hex', one_mul] at h1
    have h2 : |weightIntegral (Set.Ioo (-1) 1) (jacW α.get β.get) (Chebyshev.T ℝ m)| ≤ ∫ x in Set.Ioo (-1 : ℝ) 1, jacW α.get β.get x := by
      rw [weightIntegral, ← Real.norm_eq_abs]
      refine norm_integral_le_of_norm_le hwi ((ae_restrict_iff' measurableSet_Ioo).2 (.of_forall fun x hx => ?_))
      rw [Real.norm_eq_abs, abs_mul, abs_of_nonneg (hw0 x hx)]
      exact mul_le_of_le_one_left (hw0 x hx) (abs_T_le hx.1.le hx.2.le m)
    refine (abs_sub _ _).trans ?_
    rw [abs_mul, abs_of_pos hκ]
    have := mul_le_mul_of_nonneg_left h2 hκ.le
    linarith

/-- C116 for Gauss-Chebyshev of the second kind (of the first kind: `C114_first_bound`) -/
theorem C116_chebyshev_second (mode : Overflow) {n : ℕ} (hn : 0 < n) (hlt : n + 1 < 2 ^ 64) :
    ∃ r : Rule ℝ, GaussChebyshevSecondKind.new mode n = some r ∧ ∀ (a b : ℝ) (f : ℝ → ℝ) (c : ℕ → ℝ), a < b → IsChebyshevSeries f a b c →
      |(AnyRule.chebyshevSecond r).value a b f - ∫ t in a..b, f t * Real.sqrt (1 - ((2 * t - a - b) / (b - a)) ^ 2)| ≤
        (b - a) / 2 * (Real.pi / 2 * ∑' k : ℕ, |c (2 * n + k)|) := by
  refine ⟨_, cheb2_new_eq hlt, fun a b f c hab hf => ?_⟩
  have hex := exact2 hn
  have hw0 : ∀ x ∈ Set.Ioo (-1 : ℝ) 1, 0 ≤ chebW2 x := fun x _ => by unfold chebW2; positivity
  have hin : ∀ p ∈ pairs2 n, p.1 ∈ Set.Icc (-1 : ℝ) 1 := fun p hp =>
    ⟨(gauss_nodes_gt one_pos hex posDef_cheb2 (fun x hx => hx.1.le) p hp).le, (gauss_nodes_lt one_pos hex posDef_cheb2 (fun x hx => hx.2.le) p hp).le⟩
  have h := series_error (κ := 1) (K := Real.pi / 2) (N := 2 * n) (e := fun _ => 0) hw0 integrableOn_cheb2 hf.1 (series_transport hab hf) hin
    (fun m hm => ?_) (fun m hm => ?_)
  · simp only [zero_mul, Finset.sum_const_zero, zero_add] at h
    rw [value_gauss_quad rfl]
    have := transport_error hab h
    rw [one_mul] at this
    exact this
  · rw [hex _ ((natDegree_T_le m).trans (by rw [length_pairs2]; omega)), sub_self, abs_zero]
  · rw [one_mul, weight2_T, if_neg (by omega)]
    by_cases hm2 : m = 2
    · obtain rfl : n = 1 := by omega
      subst hm2
      rw [if_pos rfl, show quad _ _ = _ from quad2_T 1 ((2 : ℕ) : ℤ)]
      norm_num
      have := Real.pi_pos
      rw [abs_le]; constructor <;> linarith
    · rw [if_neg hm2, sub_zero]
      have h1 := abs_quad_le (L := pairs2 n) (f := fun x => (Chebyshev.T ℝ m).eval x) (ε := 1) (fun p hp => (gauss_weights_pos one_pos hex posDef_cheb2 p hp).le)
        fun p hp => abs_T_le (hin p hp).1 (hin p hp).2 m
      rw [gauss_mass hex, integral_chebW2, one_mul, one_mul] at h1
      exact h1

/-! ### Instances: `x⁴` with two points -/

theorem quartic_tail {n : ℕ} (hn : n = 2) : ∑' k : ℕ, |quarticCoeff (2 * n + k)| = 1 / 8 := by
  subst hn
  rw [tsum_eq_single 0 fun k hk => ?_]
  · norm_num [quarticCoeff]
  · have : 0 < k := Nat.pos_of_ne_zero hk
    rw [quarticCoeff, if_neg (by omega), if_neg (by omega), if_neg (by omega), abs_zero]

/-- `C116_legendre`: the two-point rule returns 2/9 instead of 2/5, the bound on the difference is 0.267 -/
example : ∃ r : Rule ℝ, GaussLegendre.new .checked 2 = some r ∧ |(AnyRule.legendre r).value (-1) 1 (fun x => x ^ 4) - ∫ t in (-1 : ℝ)..1, t ^ 4| ≤ 0.267 := by
  obtain ⟨r, hr, h⟩ := C116_legendre .checked (n := 2) (by norm_num) (by norm_num)
  refine ⟨r, hr, (h _ _ _ _ (by norm_num) quartic_series).trans ?_⟩
  rw [quartic_tail rfl]
  norm_num [Finset.sum_range_succ, quarticCoeff, abs_of_pos]

/-- `C116_jacobi`: weight `1 - x²`, two points -/
example : ∃ (ext : Externals ℝ) (r : JacobiRule ℝ) (κ : ℝ) (al : FiniteAboveNegOne ℝ), al.get = 1 ∧ GaussJacobi.new .checked ext 2 al al = some r ∧ |κ - 1| ≤ 6e-12 ∧
    |(AnyRule.jacobi r).value (-1) 1 (fun x => x ^ 4) - κ * ∫ t in (-1 : ℝ)..1, t ^ 4 * ((1 - (2 * t - -1 - 1) / (1 - -1)) ^ (1 : ℝ) * (1 + (2 * t - -1 - 1) / (1 - -1)) ^ (1 : ℝ))| ≤ 0.34 := by
  obtain ⟨r, κ, hr, hκ, h⟩ := C116_jacobi exactSolver_exists .checked (n := 2) (by norm_num) (α := ⟨(1 : ℝ)⟩) (β := ⟨1⟩) (show (-1 : ℝ) < 1 by norm_num) (show (-1 : ℝ) < 1 by norm_num)
    (show (1 : ℝ) + 1 ≠ -1 by norm_num) (show ¬ Delegated (1 : ℝ) 1 by unfold Delegated; norm_num) (Or.inl rfl)
  refine ⟨_, r, κ, _, rfl, hr, hκ, (h _ _ _ _ (by norm_num) quartic_series).trans ?_⟩
  rw [quartic_tail rfl]
  have e : ∫ x in Set.Ioo (-1 : ℝ) 1, (1 - x) ^ (1 : ℝ) * (1 + x) ^ (1 : ℝ) = 4 / 3 := by
    rw [setIntegral_Ioo_eq_interval (by norm_num)]
    simp only [Real.rpow_one]
    rw [intervalIntegral.integral_congr (g := fun x : ℝ => 1 - x ^ 2) fun x _ => by ring]
    rw [intervalIntegral.integral_sub (by simp) (by simp)]
    norm_num
  have e' : ∫ x in Set.Ioo (-1 : ℝ) 1, (1 - x) ^ (FiniteAboveNegOne.get (⟨(1 : ℝ)⟩ : FiniteAboveNegOne ℝ)) * (1 + x) ^ (FiniteAboveNegOne.get (⟨(1 : ℝ)⟩ : FiniteAboveNegOne ℝ)) = 4 / 3 := e
  rw [e']
  have := (abs_le.1 hκ).2
  norm_num at this ⊢
  linarith

/-- `C116_chebyshev_second`: the two-point rule returns `π/32` instead of `π/16`; the bound on the difference is `π/16` -/
example : ∃ r : Rule ℝ, GaussChebyshevSecondKind.new .checked 2 = some r ∧
    |(AnyRule.chebyshevSecond r).value (-1) 1 (fun x => x ^ 4) - ∫ t in (-1 : ℝ)..1, t ^ 4 * Real.sqrt (1 - ((2 * t - -1 - 1) / (1 - -1)) ^ 2)| ≤ Real.pi / 16 := by
  obtain ⟨r, hr, h⟩ := C116_chebyshev_second .checked (n := 2) (by norm_num) (by norm_num)
  refine ⟨r, hr, (h _ _ _ _ (by norm_num) quartic_series).trans (le_of_eq ?_)⟩
  rw [quartic_tail rfl]
  ring

end GaussQuad.Props
