import Verif.Proofs.GaussNorms
import Verif.Props.Chebyshev
import Verif.Props.GolubWelschExact
import Verif.Props.GammaAccuracy
import Verif.Props.LegendreLarge
import Mathlib.Analysis.SpecialFunctions.Trigonometric.Deriv
import Mathlib.Analysis.SpecialFunctions.ExpDeriv

/-!
# C66: the error of the Gauss rules for smooth integrands

The classical remainder: an `n`-point Gauss rule applied to a function whose derivative of order `2n` is bounded by `K` on the open interval of integration is off by
at most `K / (2n)!` times the integral of the square of the monic orthogonal polynomial of degree `n`, and this is attained.  Here for the rules the crate builds
(`/repo/src/legendre/mod.rs` l.84-105, `/repo/src/chebyshev/mod.rs`, `/repo/src/hermite/mod.rs`, `/repo/src/laguerre/mod.rs`, `/repo/src/jacobi/mod.rs`) in exact arithmetic.
-/

namespace GaussQuad.Props
open Polynomial Spec FloatOps MeasureTheory

/-- C66 for Gauss-Chebyshev of the first and the second kind -/
theorem C66_chebyshev (mode : Overflow) {n : ℕ} (hn : 0 < n) (hlt : n + 1 < 2 ^ 64) {a b : ℝ} (hab : a ≠ b) {g : ℝ → ℝ} {K : ℝ}
    (hg : SmoothOn g (2 * n) K (Set.uIoo a b)) :
    (∃ r : Rule ℝ, GaussChebyshevFirstKind.new mode n = some r ∧
      IntervalIntegrable (fun t => g t * (1 / Real.sqrt (1 - ((2 * t - a - b) / (b - a)) ^ 2))) volume a b ∧
      |(AnyRule.chebyshevFirst r).value a b g - ∫ t in a..b, g t * (1 / Real.sqrt (1 - ((2 * t - a - b) / (b - a)) ^ 2))| ≤
        K * (|b - a| / 2) ^ (2 * n + 1) / (2 * n).factorial * (Real.pi / 2 ^ (2 * n - 1))) ∧
    (∃ r : Rule ℝ, GaussChebyshevSecondKind.new mode n = some r ∧
      IntervalIntegrable (fun t => g t * Real.sqrt (1 - ((2 * t - a - b) / (b - a)) ^ 2)) volume a b ∧
      |(AnyRule.chebyshevSecond r).value a b g - ∫ t in a..b, g t * Real.sqrt (1 - ((2 * t - a - b) / (b - a)) ^ 2)| ≤
        K * (|b - a| / 2) ^ (2 * n + 1) / (2 * n).factorial * (Real.pi / 2 ^ (2 * n + 1))) := by
  refine ⟨⟨_, cheb1_new_eq hlt, ?_⟩, ⟨_, cheb2_new_eq hlt, ?_⟩⟩
  · have h := interval_remainder (L := pairs1 n) (w := chebW1) (by rwa [length_pairs1]) one_pos (exact1 hn) posDef_cheb1
      (fun x _ => by unfold chebW1; positivity) integrableOn_cheb1 hab (by rw [length_pairs1]; exact hg)
    rw [cheb1_norm (by rwa [length_pairs1]) one_pos (exact1 hn), length_pairs1, one_mul, one_mul] at h
    rw [value_gauss_quad rfl]
    exact h
  · have h := interval_remainder (L := pairs2 n) (w := chebW2) (by rwa [length_pairs2]) one_pos (exact2 hn) posDef_cheb2
      (fun x _ => by unfold chebW2; positivity) integrableOn_cheb2 hab (by rw [length_pairs2]; exact hg)
    rw [cheb2_norm (by rwa [length_pairs2]) one_pos (exact2 hn), length_pairs2, one_mul, one_mul] at h
    rw [value_gauss_quad rfl]
    exact h

/-- C66 for Gauss-Hermite -/
theorem C66_hermite {ext : Externals ℝ} (hext : ExactSolver ext) {n : ℕ} (hn : 0 < n) {g : ℝ → ℝ} {K : ℝ} (hg : SmoothOn g (2 * n) K Set.univ) (a b : ℝ) :
    ∃ r : Rule ℝ, GaussHermite.new ext n = some r ∧ Integrable (fun x => g x * Real.exp (-x ^ 2)) ∧
      |(AnyRule.hermite r).value a b g - ∫ x, g x * Real.exp (-x ^ 2)| ≤ K / (2 * n).factorial * (Real.sqrt Real.pi * n.factorial / 2 ^ n) := by
  obtain ⟨r, h1, h2⟩ := hermite_gauss hext hn
  refine ⟨r, h1, ?_⟩
  have hL : 0 < r.nodeWeightPairs.length := by rw [h2.length]; exact hn
  have h := gauss_remainder Set.ordConnected_univ MeasurableSet.univ hL one_pos h2.exact' (gauss_nodes_nodup one_pos h2.exact' posDef_hermite)
    (fun q _ => Set.mem_univ _) (fun x _ => (Real.exp_pos _).le) integrable_hermite (F := fun k => iteratedDeriv k g) (K := K)
    (by rw [h2.length]; exact hg.derivs isOpen_univ) (by rw [h2.length]; exact hg.bound)
  rw [hermite_norm hL one_pos h2.exact', h2.length, one_mul, one_mul, integrableOn_univ, setIntegral_univ] at h
  simp only [iteratedDeriv_zero] at h
  rw [value_real]
  exact h

/-- C66 for Gauss-Laguerre, up to the gamma factor `c` of the crate's weights (`C33_exact`, `C49_gamma_accurate`) -/
theorem C66_laguerre {ext : Externals ℝ} (hext : ExactSolver ext) {n : ℕ} (hn : 0 < n) {α : FiniteAboveNegOne ℝ} (hα : -1 < α.get) :
    ∃ (r : LaguerreRule ℝ) (c : ℝ), GaussLaguerre.new ext n α = some r ∧ |c - 1| ≤ 2e-12 ∧
      ∀ (g : ℝ → ℝ) (K a b : ℝ), SmoothOn g (2 * n) K (Set.Ioi 0) → IntegrableOn (fun x => g x * (x ^ α.get * Real.exp (-x))) (Set.Ioi 0) ∧
      |(AnyRule.laguerre r).value a b g - c * ∫ x in Set.Ioi 0, g x * (x ^ α.get * Real.exp (-x))| ≤
        c * (K / (2 * n).factorial * (n.factorial * Real.Gamma (n + α.get + 1))) := by
  obtain ⟨r, h1, -, h2⟩ := laguerre_gauss hext hn α hα
  have hc := laguerre_factor_pos hα
  refine ⟨r, gamma (α.get + 1) / Real.Gamma (α.get + 1), h1, C49_gamma_accurate fun m hm => ?_, fun g K a b hg => ?_⟩
  · have : (0 : ℝ) ≤ m := Nat.cast_nonneg m
    linarith
  have hL : 0 < r.nodeWeightPairs.length := by rw [h2.length]; exact hn
  have h := gauss_remainder Set.ordConnected_Ioi measurableSet_Ioi hL hc h2.exact' (gauss_nodes_nodup hc h2.exact' (posDef_laguerre hα))
    (fun q hq => gauss_nodes_gt hc h2.exact' (posDef_laguerre hα) (fun x hx => (show (0 : ℝ) < x from hx).le) q hq)
    (fun x hx => mul_nonneg (Real.rpow_nonneg (show (0 : ℝ) < x from hx).le _) (Real.exp_pos _).le) (integrable_laguerre hα) (F := fun k => iteratedDeriv k g) (K := K)
    (by rw [h2.length]; exact hg.derivs isOpen_Ioi) (by rw [h2.length]; exact hg.bound)
  rw [laguerre_norm hα hL hc h2.exact', h2.length] at h
  simp only [iteratedDeriv_zero] at h
  rw [value_real]
  exact h

theorem exactUpTo_of_jacobiExact {r : JacobiRule ℝ} {n : ℕ} {α β c : ℝ} (h : JacobiExact r n α β c) :
    ExactUpTo r.nodeWeightPairs (2 * n - 1) (Set.Ioo (-1) 1) (jacW α β) c := fun p hp => by
  have h1 := h p hp (-1) 1 (by norm_num)
  rw [value_gauss_quad rfl] at h1
  norm_num at h1
  unfold weightIntegral jacW
  rw [setIntegral_Ioo_eq_interval (by norm_num)]
  exact h1

/-- the gamma factor at degree 1 -/
theorem jacobi_one_factor {α β : ℝ} (hα : -1 < α) (hβ : -1 < β) :
    0 < (gamma (α + 1) / Real.Gamma (α + 1) * (gamma (β + 1) / Real.Gamma (β + 1)) / (gamma (α + β + 2) / Real.Gamma (α + β + 2)) : ℝ) ∧
    |(gamma (α + 1) / Real.Gamma (α + 1) * (gamma (β + 1) / Real.Gamma (β + 1)) / (gamma (α + β + 2) / Real.Gamma (α + β + 2)) : ℝ) - 1| ≤ 6e-12 := by
  have np : ∀ x : ℝ, 0 < x → ∀ n : ℕ, x ≠ -n := fun x hx n hn => by
    have : (0 : ℝ) ≤ n := Nat.cast_nonneg n
    linarith
  obtain ⟨a1, a2⟩ := GammaAcc.gamma_accurate (np (α + 1) (by linarith))
  obtain ⟨b1, b2⟩ := GammaAcc.gamma_accurate (np (β + 1) (by linarith))
  obtain ⟨c1, c2⟩ := GammaAcc.gamma_accurate (np (α + β + 2) (by linarith))
  have hpos := div_pos (mul_pos a1 b1) c1
  refine ⟨hpos, ?_⟩
  have hlog : |Real.log (gamma (α + 1) / Real.Gamma (α + 1) * (gamma (β + 1) / Real.Gamma (β + 1)) / (gamma (α + β + 2) / Real.Gamma (α + β + 2)))| ≤ 5.16e-12 := by
    rw [Real.log_div (mul_pos a1 b1).ne' c1.ne', Real.log_mul a1.ne' b1.ne']
    rw [abs_le] at *
    constructor <;> linarith [a2.1, a2.2, b2.1, b2.2, c2.1, c2.2]
  exact (abs_sub_one_of_log hpos hlog (by norm_num)).trans (by norm_num)

/-- the rules of `C66_jacobi` are exact -/
theorem jacobi_exact_rule {ext : Externals ℝ} (hext : ExactSolver ext) (mode : Overflow) {n : ℕ} (hn : 0 < n) {α β : FiniteAboveNegOne ℝ} (hα : -1 < α.get) (hβ : -1 < β.get)
    (hs : α.get + β.get ≠ -1) (hd : ¬ Delegated α.get β.get) (hodd : n % 2 = 0 ∨ n = 1 ∨ α = β) :
    ∃ (r : JacobiRule ℝ) (c : ℝ), GaussJacobi.new mode ext n α β = some r ∧ 0 < c ∧ |c - 1| ≤ 6e-12 ∧ JacobiExact r n α.get β.get c ∧ r.nodeWeightPairs.length = n := by
  have hlen : ∀ r, GaussJacobi.new mode ext n α β = some r → r.nodeWeightPairs.length = n := fun r hr => by
    by_cases h1 : n = 1
    · subst h1
      rw [jacobi_new_one mode ext hd] at hr
      rw [← Option.some.inj hr]; rfl
    · obtain ⟨r', L, e1, e2, e3, -⟩ := jacobi_general hext hn hα hβ hs
      rw [jacobi_new_general mode ext h1 hd, e1] at hr
      rw [← Option.some.inj hr]
      have := congrArg List.length e3
      rw [List.length_map, List.length_map, e2.length] at this
      exact this
  by_cases h1 : n = 1
  · subst h1
    obtain ⟨r, hr, he⟩ := C34_one mode ext hα hβ hd
    exact ⟨r, _, hr, (jacobi_one_factor hα hβ).1, (jacobi_one_factor hα hβ).2, he, hlen r hr⟩
  · rcases Nat.mod_two_eq_zero_or_one n with h2 | h2
    · obtain ⟨r, hr, he⟩ := C34_even hext mode hn h2 hα hβ hs hd
      exact ⟨r, _, hr, jacobiFactor_pos hα hβ hs, C49_jacobi_factor hα hβ hs, he, hlen r hr⟩
    · obtain rfl : α = β := by
        rcases hodd with h | h | h
        · omega
        · exact absurd h h1
        · exact h
      obtain ⟨r, hr, he⟩ := C34_odd_symmetric hext mode (by omega) h2 hα hd
      exact ⟨r, _, hr, jacobiFactor_pos hα hβ hs, C49_jacobi_factor hα hβ hs, he, hlen r hr⟩

/-- C66 for Gauss-Jacobi outside the delegated parameter pairs: at even degrees, at degree 1 and for equal parameters (at other odd degrees the rule is wrong,
`C34_odd_refuted`) -/
theorem C66_jacobi {ext : Externals ℝ} (hext : ExactSolver ext) (mode : Overflow) {n : ℕ} (hn : 0 < n) {α β : FiniteAboveNegOne ℝ} (hα : -1 < α.get) (hβ : -1 < β.get)
    (hs : α.get + β.get ≠ -1) (hd : ¬ Delegated α.get β.get) (hodd : n % 2 = 0 ∨ n = 1 ∨ α = β) :
    ∃ (r : JacobiRule ℝ) (c : ℝ), GaussJacobi.new mode ext n α β = some r ∧ |c - 1| ≤ 6e-12 ∧
      ∀ (a b : ℝ) (g : ℝ → ℝ) (K : ℝ), a ≠ b → SmoothOn g (2 * n) K (Set.uIoo a b) →
      IntervalIntegrable (fun t => g t * ((1 - (2 * t - a - b) / (b - a)) ^ α.get * (1 + (2 * t - a - b) / (b - a)) ^ β.get)) volume a b ∧
      |(AnyRule.jacobi r).value a b g - c * ∫ t in a..b, g t * ((1 - (2 * t - a - b) / (b - a)) ^ α.get * (1 + (2 * t - a - b) / (b - a)) ^ β.get)| ≤
        c * (K * (|b - a| / 2) ^ (2 * n + 1) / (2 * n).factorial * jacNorm n α.get β.get) := by
  obtain ⟨r, c, hr, hc, hc1, he, hlen⟩ := jacobi_exact_rule hext mode hn hα hβ hs hd hodd
  refine ⟨r, c, hr, hc1, fun a b g K hab hg => ?_⟩
  have hex : ExactUpTo r.nodeWeightPairs (2 * r.nodeWeightPairs.length - 1) (Set.Ioo (-1) 1) (jacW α.get β.get) c := by
    rw [hlen]; exact exactUpTo_of_jacobiExact he
  have hL : 0 < r.nodeWeightPairs.length := by rwa [hlen]
  have h := interval_remainder hL hc hex (posDef_jacobi hα hβ)
    (fun x hx => mul_nonneg (Real.rpow_nonneg (by linarith [hx.2]) _) (Real.rpow_nonneg (by linarith [hx.1]) _)) (integrable_jacobi hα hβ) hab
    (by rw [hlen]; exact hg)
  rw [jacobi_norm hα hβ hs hL hc hex, hlen] at h
  rw [value_gauss_quad rfl]
  exact h

/-- the rule the crate builds in exact arithmetic against the true Gauss-Legendre rule `G`, for Lipschitz integrands -/
theorem legendre_true_rule (mode : Overflow) {n : ℕ} (hn : 0 < n) (hlt : n + 1 < 2 ^ 64) :
    ∃ r : Rule ℝ, GaussLegendre.new mode n = some r ∧ ∃ G : List (ℝ × ℝ), G.length = n ∧ ExactUpTo G (2 * n - 1) (Set.Ioo (-1) 1) (fun _ => 1) 1 ∧
      (∀ p ∈ r.asNodeWeightPairs, p.1 ∈ Set.Ioo (-1 : ℝ) 1) ∧ ∀ (f : ℝ → ℝ) (M Λ : ℝ), (∀ x ∈ Set.Ioo (-1 : ℝ) 1, |f x| ≤ M) →
      (∀ x ∈ Set.Ioo (-1 : ℝ) 1, ∀ y ∈ Set.Ioo (-1 : ℝ) 1, |f x - f y| ≤ Λ * |x - y|) → 0 ≤ Λ →
      |quad r.asNodeWeightPairs f - quad G f| ≤ 2 * (2.5e-15 * M + 2e-16 * Λ) := by
  obtain ⟨r', hr', hlen', hin', -⟩ := C37_legendre mode hn hlt
  have hin'' : ∀ p ∈ r'.asNodeWeightPairs, p.1 ∈ Set.Ioo (-1 : ℝ) 1 := fun p hp => ⟨(hin' p hp).1, (hin' p hp).2.1⟩
  have hnonneg : ∀ {f : ℝ → ℝ} {M : ℝ}, (∀ x ∈ Set.Ioo (-1 : ℝ) 1, |f x| ≤ M) → 0 ≤ M := fun h => (abs_nonneg _).trans (h 0 (by norm_num))
  rcases le_or_gt n 100 with h100 | h100
  · obtain ⟨r, hr, G, hlen, -, hin, hex, hclose⟩ := C38_tables mode hn h100
    rw [hr] at hr'
    obtain rfl := Option.some.inj hr'
    refine ⟨r, hr, G, hlen, hex, hin'', fun f M Λ hM hΛ hΛ0 => ?_⟩
    have hpos := gauss_weights_pos one_pos (by rw [hlen]; exact hex) posDef_one
    have hsum : (G.map (·.2)).sum = 2 := by
      have := gauss_mass (by rw [hlen]; exact hex)
      rw [this]; simp; norm_num
    have := quad_close (f := f) (K := M) (L := Λ) hclose (fun q hq => hM _ (hin'' q hq)) (fun q hq => (hpos q hq).le) hΛ0
      (fun p hp q hq => hΛ _ (hin'' p hp) _ ⟨(hin q hq).2.1, (hin q hq).2.2⟩)
    refine this.trans ?_
    rw [hsum, hlen']
    have h1 : (n : ℝ) ≤ 100 := by exact_mod_cast h100
    have h2 := mul_le_mul_of_nonneg_right h1 (hnonneg hM)
    nlinarith
  · obtain ⟨r, hr, G, hlen, -, hin, hex, hclose⟩ := C50_asymptotic mode h100 hlt
    rw [hr] at hr'
    obtain rfl := Option.some.inj hr'
    refine ⟨r, hr, G, hlen, hex, hin'', fun f M Λ hM hΛ hΛ0 => ?_⟩
    have hsum : (G.map (·.2)).sum = 2 := by
      have := gauss_mass (by rw [hlen]; exact hex)
      rw [this]; simp; norm_num
    have := quad_close_rel (f := f) (K := M) (M := Λ * (75 / 10 ^ 18)) hclose (fun q hq => hM _ (hin'' q hq)) (fun q hq => (hin q hq).2.2.2.le)
      (fun p hp q hq hpq => (hΛ _ (hin'' p hp) _ ⟨(hin q hq).2.1, (hin q hq).2.2.1⟩).trans (mul_le_mul_of_nonneg_left hpq hΛ0))
    refine this.trans ?_
    rw [hsum]
    have := hnonneg hM
    nlinarith

/-- C66 for Gauss-Legendre: the remainder of the exact rule plus the error of the crate's nodes and weights (`C38_tables`, `C50_asymptotic`) for an integrand bounded by
`M` with Lipschitz constant `Λ` -/
theorem C66_legendre (mode : Overflow) {n : ℕ} (hn : 0 < n) (hlt : n + 1 < 2 ^ 64) :
    ∃ r : Rule ℝ, GaussLegendre.new mode n = some r ∧ ∀ (a b : ℝ) (g : ℝ → ℝ) (K M Λ : ℝ), a < b → SmoothOn g (2 * n) K (Set.Ioo a b) →
      (∀ x ∈ Set.Ioo a b, |g x| ≤ M) → (∀ x ∈ Set.Ioo a b, ∀ y ∈ Set.Ioo a b, |g x - g y| ≤ Λ * |x - y|) → 0 ≤ Λ →
      IntervalIntegrable g volume a b ∧
      |(AnyRule.legendre r).value a b g - ∫ t in a..b, g t| ≤
        K * (b - a) ^ (2 * n + 1) * (n.factorial : ℝ) ^ 4 / ((2 * n + 1) * ((2 * n).factorial : ℝ) ^ 3) + (b - a) * (2.5e-15 * M + 1e-16 * (Λ * (b - a))) := by
  obtain ⟨r, hr, G, hlen, hex, hin, hclose⟩ := legendre_true_rule mode hn hlt
  refine ⟨r, hr, fun a b g K M Λ hab hg hM hΛ hΛ0 => ?_⟩
  have hL : 0 < G.length := by omega
  have hex' : ExactUpTo G (2 * G.length - 1) (Set.Ioo (-1) 1) (fun _ => 1) 1 := by rw [hlen]; exact hex
  have h := interval_remainder hL one_pos hex' posDef_one (fun x _ => zero_le_one) integrable_one hab.ne (g := g) (K := K)
    (by rw [hlen, Set.uIoo_of_lt hab]; exact hg)
  rw [legendre_norm hL one_pos hex', hlen, one_mul, one_mul, abs_of_pos (sub_pos.2 hab)] at h
  simp only [mul_one] at h
  refine ⟨h.1, ?_⟩
  have hmem : ∀ x ∈ Set.Ioo (-1 : ℝ) 1, (b - a) / 2 * x + (a + b) / 2 ∈ Set.Ioo a b := fun x hx => by
    constructor <;> nlinarith [hx.1, hx.2]
  have hh : 0 < (b - a) / 2 := by linarith
  have h2 := hclose (fun x => g ((b - a) / 2 * x + (a + b) / 2)) M (Λ * ((b - a) / 2)) (fun x hx => hM _ (hmem x hx))
    (fun x hx y hy => by
      refine (hΛ _ (hmem x hx) _ (hmem y hy)).trans (le_of_eq ?_)
      rw [show (b - a) / 2 * x + (a + b) / 2 - ((b - a) / 2 * y + (a + b) / 2) = (b - a) / 2 * (x - y) by ring, abs_mul, abs_of_pos hh]
      ring) (by positivity)
  rw [value_gauss_quad rfl]
  have h3 : |(b - a) / 2 * quad r.asNodeWeightPairs (fun x => g ((b - a) / 2 * x + (a + b) / 2)) - (b - a) / 2 * quad G (fun x => g ((b - a) / 2 * x + (a + b) / 2))| ≤
      (b - a) / 2 * (2 * (2.5e-15 * M + 2e-16 * (Λ * ((b - a) / 2)))) := by
    rw [← mul_sub, abs_mul, abs_of_pos hh]
    exact mul_le_mul_of_nonneg_left h2 hh.le
  refine (abs_sub_le _ ((b - a) / 2 * quad G fun x => g ((b - a) / 2 * x + (a + b) / 2)) _).trans ?_
  have e : K * ((b - a) / 2) ^ (2 * n + 1) / ((2 * n).factorial : ℝ) * (2 ^ (2 * n + 1) * (n.factorial : ℝ) ^ 4 / ((2 * n + 1) * ((2 * n).factorial : ℝ) ^ 2)) =
      K * (b - a) ^ (2 * n + 1) * (n.factorial : ℝ) ^ 4 / ((2 * n + 1) * ((2 * n).factorial : ℝ) ^ 3) := by
    rw [div_pow]; field_simp
  rw [← e]
  refine (add_le_add h3 h.2).trans (le_of_eq ?_)
  ring

/-- C66, sharpness: for every monic polynomial of degree `2n` (whose derivative of order `2n` is the constant `(2n)!`) the error is exactly the bound. -/
theorem C66_sharp {ext : Externals ℝ} (hext : ExactSolver ext) (mode : Overflow) {n : ℕ} (hn : 0 < n) (hlt : n + 1 < 2 ^ 64) {p : ℝ[X]} (hp : p.Monic)
    (hd : p.natDegree = 2 * n) :
    (∃ r : Rule ℝ, GaussHermite.new ext n = some r ∧
      (∫ x, p.eval x * Real.exp (-x ^ 2)) - (AnyRule.hermite r).value 0 0 (fun x => p.eval x) = Real.sqrt Real.pi * n.factorial / 2 ^ n) ∧
    (∀ α : FiniteAboveNegOne ℝ, -1 < α.get → ∃ (r : LaguerreRule ℝ) (c : ℝ), GaussLaguerre.new ext n α = some r ∧ |c - 1| ≤ 2e-12 ∧
      c * (∫ x in Set.Ioi 0, p.eval x * (x ^ α.get * Real.exp (-x))) - (AnyRule.laguerre r).value 0 0 (fun x => p.eval x) =
        c * (n.factorial * Real.Gamma (n + α.get + 1))) ∧
    (∃ r : Rule ℝ, GaussChebyshevFirstKind.new mode n = some r ∧
      (∫ x in (-1 : ℝ)..1, p.eval x * (1 / Real.sqrt (1 - x ^ 2))) - (AnyRule.chebyshevFirst r).value (-1) 1 (fun x => p.eval x) = Real.pi / 2 ^ (2 * n - 1)) ∧
    (∃ r : Rule ℝ, GaussChebyshevSecondKind.new mode n = some r ∧
      (∫ x in (-1 : ℝ)..1, p.eval x * Real.sqrt (1 - x ^ 2)) - (AnyRule.chebyshevSecond r).value (-1) 1 (fun x => p.eval x) = Real.pi / 2 ^ (2 * n + 1)) := by
  refine ⟨?_, fun α hα => ?_, ⟨_, cheb1_new_eq hlt, ?_⟩, ⟨_, cheb2_new_eq hlt, ?_⟩⟩
  · obtain ⟨r, h1, h2⟩ := hermite_gauss hext hn
    have hL : 0 < r.nodeWeightPairs.length := by rw [h2.length]; exact hn
    have h := gauss_monic_error hL h2.exact' (gauss_nodes_nodup one_pos h2.exact' posDef_hermite) integrable_hermite hp (by rw [h2.length]; exact hd)
    rw [hermite_norm hL one_pos h2.exact', h2.length, one_mul, one_mul, weightIntegral, setIntegral_univ] at h
    refine ⟨r, h1, ?_⟩
    rw [value_real]
    exact h
  · obtain ⟨r, h1, -, h2⟩ := laguerre_gauss hext hn α hα
    have hc := laguerre_factor_pos hα
    have hL : 0 < r.nodeWeightPairs.length := by rw [h2.length]; exact hn
    have h := gauss_monic_error hL h2.exact' (gauss_nodes_nodup hc h2.exact' (posDef_laguerre hα)) (integrable_laguerre hα) hp (by rw [h2.length]; exact hd)
    rw [laguerre_norm hα hL hc h2.exact', h2.length, weightIntegral] at h
    refine ⟨r, gamma (α.get + 1) / Real.Gamma (α.get + 1), h1, C49_gamma_accurate fun m hm => ?_, ?_⟩
    · have : (0 : ℝ) ≤ m := Nat.cast_nonneg m
      linarith
    rw [value_real]
    exact h
  · have hL : 0 < (pairs1 n).length := by rwa [length_pairs1]
    have h := gauss_monic_error hL (exact1 hn) (gauss_nodes_nodup one_pos (exact1 hn) posDef_cheb1) integrableOn_cheb1 hp (by rw [length_pairs1]; exact hd)
    rw [cheb1_norm hL one_pos (exact1 hn), length_pairs1, one_mul, one_mul, weightIntegral, setIntegral_Ioo_eq_interval (by norm_num)] at h
    rw [value_gauss_quad rfl]
    norm_num
    norm_num [chebW1] at h
    exact h
  · have hL : 0 < (pairs2 n).length := by rwa [length_pairs2]
    have h := gauss_monic_error hL (exact2 hn) (gauss_nodes_nodup one_pos (exact2 hn) posDef_cheb2) integrableOn_cheb2 hp (by rw [length_pairs2]; exact hd)
    rw [cheb2_norm hL one_pos (exact2 hn), length_pairs2, one_mul, one_mul, weightIntegral, setIntegral_Ioo_eq_interval (by norm_num)] at h
    rw [value_gauss_quad rfl]
    norm_num
    exact h

/-! ## examples -/

theorem smooth_cos (N : ℕ) (S : Set ℝ) : SmoothOn Real.cos N 1 S :=
  ⟨Real.contDiff_cos.contDiffOn, fun x _ => Real.abs_iteratedDeriv_cos_le_one N x⟩

/-- the integral of `cos x · e^(-x²)` with 10 nodes: the error is below `3e-15` -/
example : ∃ ext : Externals ℝ, ExactSolver ext ∧ ∃ r : Rule ℝ, GaussHermite.new ext 10 = some r ∧
    |(AnyRule.hermite r).value 0 0 Real.cos - ∫ x, Real.cos x * Real.exp (-x ^ 2)| ≤ 3e-15 := by
  refine ⟨_, exactSolver_exists, ?_⟩
  obtain ⟨r, h1, -, h2⟩ := C66_hermite exactSolver_exists (n := 10) (by norm_num) (smooth_cos _ _) 0 0
  refine ⟨r, h1, h2.trans ?_⟩
  have : Real.sqrt Real.pi ≤ 2 := Real.sqrt_le_iff.2 ⟨by norm_num, by linarith [Real.pi_le_four]⟩
  norm_num [Nat.factorial]
  linarith

example : ∃ ext : Externals ℝ, ExactSolver ext ∧ ∃ (r : LaguerreRule ℝ) (c : ℝ), GaussLaguerre.new ext 3 ⟨1 / 2⟩ = some r ∧ |c - 1| ≤ 2e-12 ∧
    |(AnyRule.laguerre r).value 0 0 Real.cos - c * ∫ x in Set.Ioi 0, Real.cos x * (x ^ (1 / 2 : ℝ) * Real.exp (-x))| ≤
      c * (1 / (6 : ℕ).factorial * ((3 : ℕ).factorial * Real.Gamma ((3 : ℕ) + 1 / 2 + 1))) := by
  refine ⟨_, exactSolver_exists, ?_⟩
  obtain ⟨r, c, h1, h2, h3⟩ := C66_laguerre exactSolver_exists (n := 3) (by norm_num) (α := ⟨1 / 2⟩) (by norm_num)
  exact ⟨r, c, h1, h2, (h3 Real.cos 1 0 0 (smooth_cos _ _)).2⟩

example : ∃ r : Rule ℝ, GaussChebyshevFirstKind.new .checked 6 = some r ∧
    |(AnyRule.chebyshevFirst r).value (-1) 1 Real.cos - ∫ t in (-1 : ℝ)..1, Real.cos t * (1 / Real.sqrt (1 - ((2 * t - -1 - 1) / (1 - -1)) ^ 2))| ≤ 5e-12 := by
  obtain ⟨⟨r, h1, -, h2⟩, -⟩ := C66_chebyshev .checked (n := 6) (by norm_num) (by norm_num) (a := -1) (b := 1) (by norm_num) (smooth_cos _ _)
  refine ⟨r, h1, h2.trans ?_⟩
  have := Real.pi_le_four
  norm_num [Nat.factorial]
  linarith

example : ∃ ext : Externals ℝ, ExactSolver ext ∧ ∃ (r : JacobiRule ℝ) (c : ℝ), GaussJacobi.new .checked ext 4 ⟨1⟩ ⟨0⟩ = some r ∧ |c - 1| ≤ 6e-12 ∧
    |(AnyRule.jacobi r).value 0 2 Real.cos - c * ∫ t in (0 : ℝ)..2, Real.cos t * ((1 - (2 * t - 0 - 2) / (2 - 0)) ^ (1 : ℝ) * (1 + (2 * t - 0 - 2) / (2 - 0)) ^ (0 : ℝ))| ≤
      c * (1 * (|(2 : ℝ) - 0| / 2) ^ (2 * 4 + 1) / (2 * 4).factorial * jacNorm 4 1 0) := by
  refine ⟨_, exactSolver_exists, ?_⟩
  obtain ⟨r, c, h1, h2, h3⟩ := C66_jacobi exactSolver_exists .checked (n := 4) (by norm_num) (α := ⟨1⟩) (β := ⟨0⟩) (by norm_num) (by norm_num) (by norm_num)
    (by unfold Delegated; norm_num) (Or.inl (by norm_num))
  exact ⟨r, c, h1, h2, (h3 0 2 Real.cos 1 (by norm_num) (smooth_cos _ _)).2⟩

/-- `∫ cos` over `[0, 1]` with 8 nodes, to `4e-15` -/
example : ∃ r : Rule ℝ, GaussLegendre.new .checked 8 = some r ∧ |(AnyRule.legendre r).value 0 1 Real.cos - Real.sin 1| ≤ 4e-15 := by
  obtain ⟨r, h1, h2⟩ := C66_legendre .checked (n := 8) (by norm_num) (by norm_num)
  refine ⟨r, h1, ?_⟩
  have h := (h2 0 1 Real.cos 1 1 1 one_pos (smooth_cos _ _) (fun x _ => Real.abs_cos_le_one x) (fun x _ y _ => by
    rw [one_mul]; exact Real.abs_cos_sub_cos_le x y) zero_le_one).2
  rw [integral_cos, Real.sin_zero, sub_zero] at h
  refine h.trans ?_
  norm_num [Nat.factorial]

/-- `x^4` with the 2-point rules -/
example : ∃ ext : Externals ℝ, ExactSolver ext ∧ ∃ r : Rule ℝ, GaussHermite.new ext 2 = some r ∧
    (∫ x, (X ^ 4 : ℝ[X]).eval x * Real.exp (-x ^ 2)) - (AnyRule.hermite r).value 0 0 (fun x => (X ^ 4 : ℝ[X]).eval x) = Real.sqrt Real.pi * (2 : ℕ).factorial / 2 ^ 2 :=
  ⟨_, exactSolver_exists, (C66_sharp exactSolver_exists .checked (n := 2) (by norm_num) (by norm_num) (monic_X_pow 4) (by simp)).1⟩

end GaussQuad.Props
