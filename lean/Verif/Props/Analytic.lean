import Verif.Proofs.BernsteinInterval
import Verif.Props.TotalError
import Mathlib.Analysis.SpecialFunctions.ExpDeriv

/-!
# C82: geometric convergence for analytic integrands

If the integrand extends to a function that is analytic and bounded by `M` in the ellipse with foci `a` and `b` whose semi-axes add up to `ρ` times half the length of the
interval, the error of the `n`-point Gauss rule decreases like `ρ^(-2n)`.  For the rules the crate builds on finite intervals (`/repo/src/legendre/mod.rs`,
`/repo/src/chebyshev/mod.rs`, `/repo/src/jacobi/mod.rs`), in exact arithmetic and in binary64.
-/

set_option exponentiation.threshold 3000

namespace GaussQuad.Props
open Polynomial Spec FloatOps F64 MeasureTheory Bernstein

/-- C82 for both Gauss-Chebyshev rules -/
theorem C82_chebyshev (mode : Overflow) {n : ℕ} (hn : 0 < n) (hlt : n + 1 < 2 ^ 64) {a b ρ M : ℝ} (hab : a ≠ b) (hρ : 1 < ρ) {g : ℝ → ℝ}
    (hg : AnalyticAround g a b ρ M) :
    (∃ r : Rule ℝ, GaussChebyshevFirstKind.new mode n = some r ∧
      IntervalIntegrable (fun t => g t * (1 / Real.sqrt (1 - ((2 * t - a - b) / (b - a)) ^ 2))) volume a b ∧
      |(AnyRule.chebyshevFirst r).value a b g - ∫ t in a..b, g t * (1 / Real.sqrt (1 - ((2 * t - a - b) / (b - a)) ^ 2))| ≤
        2 * |b - a| * M * ρ⁻¹ ^ (2 * n - 1) / (ρ - 1) * Real.pi) ∧
    (∃ r : Rule ℝ, GaussChebyshevSecondKind.new mode n = some r ∧
      IntervalIntegrable (fun t => g t * Real.sqrt (1 - ((2 * t - a - b) / (b - a)) ^ 2)) volume a b ∧
      |(AnyRule.chebyshevSecond r).value a b g - ∫ t in a..b, g t * Real.sqrt (1 - ((2 * t - a - b) / (b - a)) ^ 2)| ≤
        2 * |b - a| * M * ρ⁻¹ ^ (2 * n - 1) / (ρ - 1) * (Real.pi / 2)) := by
  refine ⟨⟨_, cheb1_new_eq hlt, ?_⟩, ⟨_, cheb2_new_eq hlt, ?_⟩⟩
  · have h := interval_analytic (L := pairs1 n) (w := chebW1) (by rwa [length_pairs1]) one_pos (exact1 hn) posDef_cheb1
      (fun x _ => by unfold chebW1; positivity) integrableOn_cheb1 hab hρ hg
    have hm := gauss_mass (exact1 hn)
    rw [one_mul] at hm
    rw [← hm, show (List.map Prod.snd (pairs1 n)).sum = Real.pi from mass1 hn, length_pairs1, one_mul, one_mul] at h
    rw [value_gauss_quad rfl]
    exact h
  · have h := interval_analytic (L := pairs2 n) (w := chebW2) (by rwa [length_pairs2]) one_pos (exact2 hn) posDef_cheb2
      (fun x _ => by unfold chebW2; positivity) integrableOn_cheb2 hab hρ hg
    rw [integral_chebW2, length_pairs2, one_mul, one_mul] at h
    rw [value_gauss_quad rfl]
    exact h

/-- C82 for Gauss-Jacobi, up to the gamma factor `c` of the crate's weights -/
theorem C82_jacobi {ext : Externals ℝ} (hext : ExactSolver ext) (mode : Overflow) {n : ℕ} (hn : 0 < n) {α β : FiniteAboveNegOne ℝ} (hα : -1 < α.get) (hβ : -1 < β.get)
    (hs : α.get + β.get ≠ -1) (hd : ¬ Delegated α.get β.get) (hodd : n % 2 = 0 ∨ n = 1 ∨ α = β) :
    ∃ (r : JacobiRule ℝ) (c : ℝ), GaussJacobi.new mode ext n α β = some r ∧ |c - 1| ≤ 6e-12 ∧
      ∀ (a b ρ M : ℝ) (g : ℝ → ℝ), a ≠ b → 1 < ρ → AnalyticAround g a b ρ M →
      IntervalIntegrable (fun t => g t * ((1 - (2 * t - a - b) / (b - a)) ^ α.get * (1 + (2 * t - a - b) / (b - a)) ^ β.get)) volume a b ∧
      |(AnyRule.jacobi r).value a b g - c * ∫ t in a..b, g t * ((1 - (2 * t - a - b) / (b - a)) ^ α.get * (1 + (2 * t - a - b) / (b - a)) ^ β.get)| ≤
        c * (2 * |b - a| * M * ρ⁻¹ ^ (2 * n - 1) / (ρ - 1) * ∫ x in Set.Ioo (-1 : ℝ) 1, (1 - x) ^ α.get * (1 + x) ^ β.get) := by
  obtain ⟨r, c, hr, hc, hc1, he, hlen⟩ := jacobi_exact_rule hext mode hn hα hβ hs hd hodd
  refine ⟨r, c, hr, hc1, fun a b ρ M g hab hρ hg => ?_⟩
  have hex : ExactUpTo r.nodeWeightPairs (2 * r.nodeWeightPairs.length - 1) (Set.Ioo (-1) 1) (jacW α.get β.get) c := by
    rw [hlen]; exact exactUpTo_of_jacobiExact he
  have h := interval_analytic (by rwa [hlen]) hc hex (posDef_jacobi hα hβ)
    (fun x hx => mul_nonneg (Real.rpow_nonneg (by linarith [hx.2]) _) (Real.rpow_nonneg (by linarith [hx.1]) _)) (integrable_jacobi hα hβ) hab hρ hg
  rw [hlen] at h
  rw [value_gauss_quad rfl]
  exact h

/-- C82 for Gauss-Legendre: the geometric term and the distance of the tabulated or asymptotic rule from the true one -/
theorem C82_legendre (mode : Overflow) {n : ℕ} (hn : 0 < n) (hlt : n + 1 < 2 ^ 64) :
    ∃ r : Rule ℝ, GaussLegendre.new mode n = some r ∧ ∀ (a b ρ M : ℝ) (g : ℝ → ℝ), a ≠ b → 1 < ρ → AnalyticAround g a b ρ M →
      IntervalIntegrable g volume a b ∧
      |(AnyRule.legendre r).value a b g - ∫ t in a..b, g t| ≤
        |b - a| * M * (4 * ρ⁻¹ ^ (2 * n - 1) / (ρ - 1) + 2.5e-15 + 4e-16 * (ρ / (ρ - 1) ^ 2)) := by
  obtain ⟨r, hr, G, hlen, hex, hin, hclose⟩ := legendre_true_rule mode hn hlt
  refine ⟨r, hr, fun a b ρ M g hab hρ hg => ?_⟩
  have hex' : ExactUpTo G (2 * G.length - 1) (Set.Ioo (-1) 1) (fun _ => 1) 1 := by rw [hlen]; exact hex
  have h := interval_analytic (by omega) one_pos hex' posDef_one (fun x _ => zero_le_one) integrable_one hab hρ hg
  simp only [mul_one, one_mul, hlen] at h
  refine ⟨h.1, ?_⟩
  obtain ⟨F, f1, f2, f3⟩ := transport hab hg
  have hb := bound_of_analytic hρ f2 (G := fun x => g ((b - a) / 2 * x + (a + b) / 2)) f3
  have hl := lipschitz_of_analytic hρ f1 f2 (G := fun x => g ((b - a) / 2 * x + (a + b) / 2)) f3
  have hM : 0 ≤ M := (abs_nonneg _).trans (hb 0 (by norm_num))
  have h2 := hclose (fun x => g ((b - a) / 2 * x + (a + b) / 2)) M (M * (2 * ρ / (ρ - 1) ^ 2)) (fun x hx => hb x (Set.Ioo_subset_Icc_self hx))
    (fun x hx y hy => hl x (Set.Ioo_subset_Icc_self hx) y (Set.Ioo_subset_Icc_self hy)) (by have := sub_pos.2 hρ; positivity)
  rw [value_gauss_quad rfl]
  have h3 : |(b - a) / 2 * quad r.asNodeWeightPairs (fun x => g ((b - a) / 2 * x + (a + b) / 2)) - (b - a) / 2 * quad G (fun x => g ((b - a) / 2 * x + (a + b) / 2))| ≤
      |b - a| / 2 * (2 * (2.5e-15 * M + 2e-16 * (M * (2 * ρ / (ρ - 1) ^ 2)))) := by
    rw [← mul_sub, abs_mul, abs_div, abs_two]
    exact mul_le_mul_of_nonneg_left h2 (by positivity)
  have hmass : (∫ _ in Set.Ioo (-1 : ℝ) 1, (1 : ℝ)) = 2 := by simp; norm_num
  rw [hmass] at h
  refine (abs_sub_le _ ((b - a) / 2 * quad G fun x => g ((b - a) / 2 * x + (a + b) / 2)) _).trans ?_
  refine (add_le_add h3 h.2).trans (le_of_eq ?_)
  ring

/-- `1 / (t^2 + 4)` on [-1, 1], analytic in the ellipse of parameter 2 but not entire: the hypothesis holds with `M = 16/39` -/
theorem analytic_runge : AnalyticAround (fun t => 1 / (t ^ 2 + 4)) (-1) 1 2 (16 / 39) := by
  have hz : ∀ z ∈ ellipseAround (-1) 1 2, 39 / 16 ≤ ‖z ^ 2 + 4‖ := by
    intro z hz
    rw [ellipseAround, Set.mem_setOf_eq] at hz
    norm_num at hz
    have h1 : 2 * ‖z‖ ≤ ‖z + 1‖ + ‖z - 1‖ := by
      have := norm_add_le (z + 1) (z - 1)
      rw [show z + 1 + (z - 1) = 2 * z by ring, norm_mul, Complex.norm_ofNat] at this
      exact this
    have h2 : ‖z‖ ^ 2 ≤ (5 / 4) ^ 2 := by gcongr; linarith
    have h3 := norm_sub_norm_le (4 : ℂ) (-(z ^ 2))
    rw [norm_neg, norm_pow, Complex.norm_ofNat, sub_neg_eq_add, add_comm] at h3
    rw [add_comm (z ^ 2)]
    rw [add_comm] at h3
    linarith
  refine ⟨fun z => 1 / (z ^ 2 + 4), ?_, fun z h => ?_, fun x _ => by push_cast; rfl⟩
  · intro z h
    have : z ^ 2 + 4 ≠ 0 := norm_pos_iff.1 (lt_of_lt_of_le (by norm_num) (hz z h))
    exact (by fun_prop (disch := assumption) : DifferentiableAt ℂ (fun z : ℂ => 1 / (z ^ 2 + 4)) z).differentiableWithinAt
  · rw [norm_div, norm_one, div_le_iff₀ (lt_of_lt_of_le (by norm_num) (hz z h))]
    linarith [hz z h]

/-- the exponential function on [-1, 1]: every `ρ` works, with `M = e^((ρ + 1/ρ)/2)` -/
theorem analytic_exp (ρ : ℝ) : AnalyticAround Real.exp (-1) 1 ρ (Real.exp ((ρ + ρ⁻¹) / 2)) := by
  refine ⟨Complex.exp, Complex.differentiable_exp.differentiableOn, fun z hz => ?_, fun x _ => (Complex.ofReal_exp x).symm⟩
  rw [ellipseAround, Set.mem_setOf_eq] at hz
  norm_num at hz
  have h1 : 2 * ‖z‖ ≤ ‖z + 1‖ + ‖z - 1‖ := by
    have := norm_add_le (z + 1) (z - 1)
    rw [show z + 1 + (z - 1) = 2 * z by ring, norm_mul, Complex.norm_ofNat] at this
    exact this
  rw [Complex.norm_exp, Real.exp_le_exp]
  have := Complex.re_le_norm z
  linarith

/-- C82 for Gauss-Legendre in binary64: the geometric term and the rounding term of C55 -/
theorem C82_legendre_binary64 [L : Libm] (hL : AccurateTrig L) (mode : Overflow) {n : ℕ} (hn : 0 < n) (hmax : n ≤ 10 ^ 12) :
    ∃ r : Rule F64, GaussLegendre.new mode n = some r ∧
      ∀ (a b : F64) (f : F64 → F64) (g : ℝ → ℝ) (B M Λ η R K : ℝ), a.isFinite = true → b.isFinite = true → |(a.val : ℝ)| ≤ B → |(b.val : ℝ)| ≤ B →
      B ≤ 2 ^ 400 → let D := |(b.val : ℝ) - a.val|; let ρ := 4 / 10 ^ 15 * B + 1 / 2 ^ 1000; let κ := η + Λ * ρ;
      let E := fun d : ℕ => D * (1.01 * κ + (1 / 10 ^ 14 + 1.2 / 10 ^ 16 * d) * (M + κ)) + 1 / 2 ^ 500 + 4 * D * K * R⁻¹ ^ (2 * n - 1) / (R - 1);
      Computes f g (around a.val b.val ρ) M Λ η → 0 ≤ Λ → M + κ ≤ 2 ^ 400 → (a.val : ℝ) ≠ b.val → 1 < R → AnalyticAround g a.val b.val R K →
      (((AnyRule.legendre r).value a b f).isFinite = true ∧ |(((AnyRule.legendre r).value a b f).val : ℝ) - ∫ t in (a.val : ℝ)..b.val, g t| ≤ E n) ∧
      (∀ s, roundings s n ≤ 10 ^ 12 → ((AnyRule.legendre r).parIntegrate s s a b f).isFinite = true ∧
        |(((AnyRule.legendre r).parIntegrate s s a b f).val : ℝ) - ∫ t in (a.val : ℝ)..b.val, g t| ≤ E (roundings s n)) := by
  obtain ⟨r, hr, G, hlen, hex, hC⟩ := C55_integrate hL mode hn hmax
  refine ⟨r, hr, ?_⟩
  intro a b f g B M Λ η R K ha hb haB hbB hB
  dsimp only
  intro hf hΛ hK hab hR hg
  have h := hC a b f g B M Λ η ha hb haB hbB hB
  dsimp only at h
  obtain ⟨h1, h2, -⟩ := h hf hΛ hK
  have hex' : ExactUpTo G (2 * G.length - 1) (Set.Ioo (-1) 1) (fun _ => 1) 1 := by rw [hlen]; exact hex
  have h3 := (interval_analytic (by omega) one_pos hex' posDef_one (fun x _ => zero_le_one) integrable_one hab hR hg).2
  have hmass : (∫ _ in Set.Ioo (-1 : ℝ) 1, (1 : ℝ)) = 2 := by simp; norm_num
  rw [hmass] at h3
  simp only [mul_one, one_mul, hlen] at h3
  rw [show 2 * |(b.val : ℝ) - a.val| * K * R⁻¹ ^ (2 * n - 1) / (R - 1) * 2 = 4 * |(b.val : ℝ) - a.val| * K * R⁻¹ ^ (2 * n - 1) / (R - 1) by ring] at h3
  exact ⟨⟨h1.1, abs_total h1.2 h3⟩, fun s hs => ⟨(h2 s hs).1, abs_total (h2 s hs).2 h3⟩⟩

/-- C82 for Gauss-Chebyshev of the first kind in binary64 -/
theorem C82_chebyshev_first_binary64 [L : Libm] (hL : AccurateTrig L) (mode : Overflow) {n : ℕ} (hn : 0 < n) (hmax : n ≤ 10 ^ 12) :
    ∃ r : Rule F64, GaussChebyshevFirstKind.new mode n = some r ∧
      ∀ (a b : F64) (f : F64 → F64) (g : ℝ → ℝ) (B M Λ η R K : ℝ), a.isFinite = true → b.isFinite = true → |(a.val : ℝ)| ≤ B → |(b.val : ℝ)| ≤ B →
      B ≤ 2 ^ 400 → let D := |(b.val : ℝ) - a.val|; let ρ := 4 / 10 ^ 15 * B + 1 / 2 ^ 1000; let κ := η + Λ * ρ;
      let T := ∫ t in (a.val : ℝ)..b.val, g t * (1 / Real.sqrt (1 - ((2 * t - a.val - b.val) / (b.val - a.val)) ^ 2));
      let E := fun d : ℕ => D * (1.6 * κ + (1 / 10 ^ 15 + 1.8 / 10 ^ 16 * d) * (M + κ)) + 1 / 2 ^ 500 + 2 * D * K * R⁻¹ ^ (2 * n - 1) / (R - 1) * Real.pi;
      Computes f g (around a.val b.val ρ) M Λ η → 0 ≤ Λ → M + κ ≤ 2 ^ 400 → (a.val : ℝ) ≠ b.val → 1 < R → AnalyticAround g a.val b.val R K →
      (((AnyRule.chebyshevFirst r).value a b f).isFinite = true ∧ |(((AnyRule.chebyshevFirst r).value a b f).val : ℝ) - T| ≤ E n) ∧
      (∀ s, roundings s n ≤ 10 ^ 12 → ((AnyRule.chebyshevFirst r).parIntegrate s s a b f).isFinite = true ∧
        |(((AnyRule.chebyshevFirst r).parIntegrate s s a b f).val : ℝ) - T| ≤ E (roundings s n)) := by
  obtain ⟨r, hr, hC⟩ := C57_first_kind hL mode hn hmax
  refine ⟨r, hr, ?_⟩
  intro a b f g B M Λ η R K ha hb haB hbB hB
  dsimp only
  intro hf hΛ hK hab hR hg
  have h := hC a b f g B M Λ η ha hb haB hbB hB
  dsimp only at h
  obtain ⟨h1, h2, -⟩ := h hf hΛ hK
  have h3 := (interval_analytic (L := pairs1 n) (w := chebW1) (by rwa [length_pairs1]) one_pos (exact1 hn) posDef_cheb1
      (fun x _ => by unfold chebW1; positivity) integrableOn_cheb1 hab hR hg).2
  have hm := gauss_mass (exact1 hn)
  rw [one_mul] at hm
  rw [← hm, show (List.map Prod.snd (pairs1 n)).sum = Real.pi from mass1 hn, length_pairs1, one_mul, one_mul, quad_pairs1] at h3
  exact ⟨⟨h1.1, abs_total h1.2 h3⟩, fun s hs => ⟨(h2 s hs).1, abs_total (h2 s hs).2 h3⟩⟩

/-- C82 for Gauss-Chebyshev of the second kind in binary64 -/
theorem C82_chebyshev_second_binary64 [L : Libm] (hL : AccurateTrig L) (hS : AccurateSin L) (mode : Overflow) {n : ℕ} (hn : 0 < n) (hmax : n ≤ 10 ^ 12) :
    ∃ r : Rule F64, GaussChebyshevSecondKind.new mode n = some r ∧
      ∀ (a b : F64) (f : F64 → F64) (g : ℝ → ℝ) (B M Λ η R K : ℝ), a.isFinite = true → b.isFinite = true → |(a.val : ℝ)| ≤ B → |(b.val : ℝ)| ≤ B →
      B ≤ 2 ^ 400 → let D := |(b.val : ℝ) - a.val|; let ρ := 4 / 10 ^ 15 * B + 1 / 2 ^ 1000; let κ := η + Λ * ρ;
      let T := ∫ t in (a.val : ℝ)..b.val, g t * Real.sqrt (1 - ((2 * t - a.val - b.val) / (b.val - a.val)) ^ 2);
      let E := fun d : ℕ => D * (0.8 * κ + (6 / 10 ^ 15 + 9 / 10 ^ 17 * d) * (M + κ)) + 1 / 2 ^ 500 + 2 * D * K * R⁻¹ ^ (2 * n - 1) / (R - 1) * (Real.pi / 2);
      Computes f g (around a.val b.val ρ) M Λ η → 0 ≤ Λ → M + κ ≤ 2 ^ 400 → (a.val : ℝ) ≠ b.val → 1 < R → AnalyticAround g a.val b.val R K →
      (((AnyRule.chebyshevSecond r).value a b f).isFinite = true ∧ |(((AnyRule.chebyshevSecond r).value a b f).val : ℝ) - T| ≤ E n) ∧
      (∀ s, roundings s n ≤ 10 ^ 12 → ((AnyRule.chebyshevSecond r).parIntegrate s s a b f).isFinite = true ∧
        |(((AnyRule.chebyshevSecond r).parIntegrate s s a b f).val : ℝ) - T| ≤ E (roundings s n)) := by
  obtain ⟨r, hr, hC⟩ := C57_second_kind hL hS mode hn hmax
  refine ⟨r, hr, ?_⟩
  intro a b f g B M Λ η R K ha hb haB hbB hB
  dsimp only
  intro hf hΛ hK hab hR hg
  have h := hC a b f g B M Λ η ha hb haB hbB hB
  dsimp only at h
  obtain ⟨h1, h2, -⟩ := h hf hΛ hK
  have h3 := (interval_analytic (L := pairs2 n) (w := chebW2) (by rwa [length_pairs2]) one_pos (exact2 hn) posDef_cheb2
      (fun x _ => by unfold chebW2; positivity) integrableOn_cheb2 hab hR hg).2
  rw [integral_chebW2, length_pairs2, one_mul, one_mul, quad_pairs2] at h3
  exact ⟨⟨h1.1, abs_total h1.2 h3⟩, fun s hs => ⟨(h2 s hs).1, abs_total (h2 s hs).2 h3⟩⟩

end GaussQuad.Props
