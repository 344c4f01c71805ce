import Verif.Proofs.SmoothInterval
import Verif.Props.TotalError

/-!
# C87: algebraic convergence for integrands of finite smoothness

If the integrand has `k` continuous derivatives on the interval and the last one is Lipschitz, the error of the `n`-point Gauss rule decreases like `n^(-k-1)`: Jackson's
theorem with an explicit constant.  For the rules the crate builds on finite intervals (`/repo/src/legendre/mod.rs`, `/repo/src/chebyshev/mod.rs`,
`/repo/src/jacobi/mod.rs`), in exact arithmetic and in binary64.  The smoothness asked for does not grow with `n`, unlike in the remainder bounds with the derivative of order `2 n`.
-/

set_option exponentiation.threshold 3000

namespace GaussQuad.Props
open Polynomial Spec FloatOps F64 MeasureTheory Bernstein Jackson

/-- C87 for both Gauss-Chebyshev rules -/
theorem C87_chebyshev (mode : Overflow) {n : ℕ} (hn : 0 < n) (hlt : n + 1 < 2 ^ 64) {a b K : ℝ} {k : ℕ} (hab : a ≠ b) (hk : k < 2 * n) {g : ℝ → ℝ}
    (hg : SmoothBetween g a b k K) :
    (∃ r : Rule ℝ, GaussChebyshevFirstKind.new mode n = some r ∧
      IntervalIntegrable (fun t => g t * (1 / Real.sqrt (1 - ((2 * t - a - b) / (b - a)) ^ 2))) volume a b ∧
      |(AnyRule.chebyshevFirst r).value a b g - ∫ t in a..b, g t * (1 / Real.sqrt (1 - ((2 * t - a - b) / (b - a)) ^ 2))| ≤
        |b - a| * ((Real.pi ^ 2 / 4 * |b - a|) ^ (k + 1) * K / (2 * n + 1).descFactorial (k + 1)) * Real.pi) ∧
    (∃ r : Rule ℝ, GaussChebyshevSecondKind.new mode n = some r ∧
      IntervalIntegrable (fun t => g t * Real.sqrt (1 - ((2 * t - a - b) / (b - a)) ^ 2)) volume a b ∧
      |(AnyRule.chebyshevSecond r).value a b g - ∫ t in a..b, g t * Real.sqrt (1 - ((2 * t - a - b) / (b - a)) ^ 2)| ≤
        |b - a| * ((Real.pi ^ 2 / 4 * |b - a|) ^ (k + 1) * K / (2 * n + 1).descFactorial (k + 1)) * (Real.pi / 2)) := by
  refine ⟨⟨_, cheb1_new_eq hlt, ?_⟩, ⟨_, cheb2_new_eq hlt, ?_⟩⟩
  · have h := interval_smooth (L := pairs1 n) (w := chebW1) hn (length_pairs1 n) one_pos (exact1 hn) posDef_cheb1
      (fun x _ => by unfold chebW1; positivity) integrableOn_cheb1 hab hk hg
    have hm := gauss_mass (exact1 hn)
    rw [one_mul] at hm
    rw [← hm, show (List.map Prod.snd (pairs1 n)).sum = Real.pi from mass1 hn, one_mul, one_mul] at h
    rw [value_gauss_quad rfl]
    exact h
  · have h := interval_smooth (L := pairs2 n) (w := chebW2) hn (length_pairs2 n) one_pos (exact2 hn) posDef_cheb2
      (fun x _ => by unfold chebW2; positivity) integrableOn_cheb2 hab hk hg
    rw [integral_chebW2, one_mul, one_mul] at h
    rw [value_gauss_quad rfl]
    exact h

/-- C87 for Gauss-Jacobi, up to the gamma factor `c` of the crate's weights -/
theorem C87_jacobi {ext : Externals ℝ} (hext : ExactSolver ext) (mode : Overflow) {n : ℕ} (hn : 0 < n) {α β : FiniteAboveNegOne ℝ} (hα : -1 < α.get) (hβ : -1 < β.get)
    (hs : α.get + β.get ≠ -1) (hd : ¬ Delegated α.get β.get) (hodd : n % 2 = 0 ∨ n = 1 ∨ α = β) :
    ∃ (r : JacobiRule ℝ) (c : ℝ), GaussJacobi.new mode ext n α β = some r ∧ |c - 1| ≤ 6e-12 ∧
      ∀ (a b K : ℝ) (k : ℕ) (g : ℝ → ℝ), a ≠ b → k < 2 * n → SmoothBetween g a b k K →
      IntervalIntegrable (fun t => g t * ((1 - (2 * t - a - b) / (b - a)) ^ α.get * (1 + (2 * t - a - b) / (b - a)) ^ β.get)) volume a b ∧
      |(AnyRule.jacobi r).value a b g - c * ∫ t in a..b, g t * ((1 - (2 * t - a - b) / (b - a)) ^ α.get * (1 + (2 * t - a - b) / (b - a)) ^ β.get)| ≤
        c * (|b - a| * ((Real.pi ^ 2 / 4 * |b - a|) ^ (k + 1) * K / (2 * n + 1).descFactorial (k + 1)) * ∫ x in Set.Ioo (-1 : ℝ) 1, (1 - x) ^ α.get * (1 + x) ^ β.get) := by
  obtain ⟨r, c, hr, hc, hc1, he, hlen⟩ := jacobi_exact_rule hext mode hn hα hβ hs hd hodd
  refine ⟨r, c, hr, hc1, fun a b K k g hab hk hg => ?_⟩
  have hex : ExactUpTo r.nodeWeightPairs (2 * r.nodeWeightPairs.length - 1) (Set.Ioo (-1) 1) (jacW α.get β.get) c := by
    rw [hlen]; exact exactUpTo_of_jacobiExact he
  have h := interval_smooth hn hlen hc hex (posDef_jacobi hα hβ)
    (fun x hx => mul_nonneg (Real.rpow_nonneg (by linarith [hx.2]) _) (Real.rpow_nonneg (by linarith [hx.1]) _)) (integrable_jacobi hα hβ) hab hk hg
  rw [value_gauss_quad rfl]
  exact h

/-- C87 for Gauss-Legendre: the algebraic term and the distance of the tabulated or asymptotic rule from the true one -/
theorem C87_legendre (mode : Overflow) {n : ℕ} (hn : 0 < n) (hlt : n + 1 < 2 ^ 64) :
    ∃ r : Rule ℝ, GaussLegendre.new mode n = some r ∧ ∀ (a b M Λ K : ℝ) (k : ℕ) (g : ℝ → ℝ), a ≠ b → (∀ x ∈ Set.uIcc a b, |g x| ≤ M) →
      (∀ x ∈ Set.uIcc a b, ∀ y ∈ Set.uIcc a b, |g x - g y| ≤ Λ * |x - y|) → k < 2 * n → SmoothBetween g a b k K →
      IntervalIntegrable g volume a b ∧
      |(AnyRule.legendre r).value a b g - ∫ t in a..b, g t| ≤
        |b - a| * (2 * ((Real.pi ^ 2 / 4 * |b - a|) ^ (k + 1) * K / (2 * n + 1).descFactorial (k + 1)) + 2.5e-15 * M + 1e-16 * |b - a| * Λ) := by
  obtain ⟨r, hr, G, hlen, hex, hin, hclose⟩ := legendre_true_rule mode hn hlt
  refine ⟨r, hr, fun a b M Λ K k g hab hM hΛ hk hg => ?_⟩
  have hex' : ExactUpTo G (2 * G.length - 1) (Set.Ioo (-1) 1) (fun _ => 1) 1 := by rw [hlen]; exact hex
  have h := interval_smooth hn hlen one_pos hex' posDef_one (fun x _ => zero_le_one) integrable_one hab hk hg
  simp only [mul_one, one_mul] at h
  refine ⟨h.1, ?_⟩
  have hΛ0 : 0 ≤ Λ := by
    have h1 := (abs_nonneg _).trans (hΛ b Set.right_mem_uIcc a Set.left_mem_uIcc)
    exact nonneg_of_mul_nonneg_left h1 (abs_pos.2 (sub_ne_zero.2 hab.symm))
  have h2 := hclose (fun x => g ((b - a) / 2 * x + (a + b) / 2)) M (|b - a| / 2 * Λ) (fun x hx => hM _ (mem_uIcc_of_Icc (Set.Ioo_subset_Icc_self hx)))
    (fun x hx y hy => by
      refine (hΛ _ (mem_uIcc_of_Icc (Set.Ioo_subset_Icc_self hx)) _ (mem_uIcc_of_Icc (Set.Ioo_subset_Icc_self hy))).trans (le_of_eq ?_)
      rw [show (b - a) / 2 * x + (a + b) / 2 - ((b - a) / 2 * y + (a + b) / 2) = (b - a) / 2 * (x - y) by ring, abs_mul, abs_div, abs_two]
      ring) (by positivity)
  rw [value_gauss_quad rfl]
  have h3 : |(b - a) / 2 * quad r.asNodeWeightPairs (fun x => g ((b - a) / 2 * x + (a + b) / 2)) - (b - a) / 2 * quad G (fun x => g ((b - a) / 2 * x + (a + b) / 2))| ≤
      |b - a| / 2 * (2 * (2.5e-15 * M + 2e-16 * (|b - a| / 2 * Λ))) := by
    rw [← mul_sub, abs_mul, abs_div, abs_two]
    exact mul_le_mul_of_nonneg_left h2 (by positivity)
  have hmass : (∫ _ in Set.Ioo (-1 : ℝ) 1, (1 : ℝ)) = 2 := by simp; norm_num
  rw [hmass] at h
  refine (abs_sub_le _ ((b - a) / 2 * quad G fun x => g ((b - a) / 2 * x + (a + b) / 2)) _).trans ?_
  refine (add_le_add h3 h.2).trans (le_of_eq ?_)
  ring

/-- `|t|` on [-1, 1], which has no derivative at 0: the hypothesis holds with `k = 0` and `K = 1` -/
theorem smooth_abs : SmoothBetween (fun t => |t|) (-1) 1 0 1 := by
  refine ⟨contDiffOn_zero.2 continuous_abs.continuousOn, fun x _ y _ => ?_⟩
  simp only [iteratedDerivWithin_zero, one_mul]
  exact abs_abs_sub_abs_le_abs_sub x y

/-- the rate for `|t|` and the `n`-point Gauss-Chebyshev rule: at most `π^3 / (2 n + 1)` -/
example (mode : Overflow) {n : ℕ} (hn : 0 < n) (hlt : n + 1 < 2 ^ 64) (h : SmoothBetween (fun t => |t|) (-1) 1 0 1) :
    ∃ r : Rule ℝ, GaussChebyshevFirstKind.new mode n = some r ∧
      |(AnyRule.chebyshevFirst r).value (-1) 1 (fun t => |t|) - ∫ t in (-1 : ℝ)..1, |t| * (1 / Real.sqrt (1 - t ^ 2))| ≤ Real.pi ^ 3 / (2 * n + 1) := by
  obtain ⟨⟨r, hr, -, h1⟩, -⟩ := C87_chebyshev mode hn hlt (by norm_num) (by omega) h
  refine ⟨r, hr, ?_⟩
  have e : ∀ t : ℝ, (2 * t - -1 - 1) / (1 - -1) = t := fun t => by ring
  simp only [e] at h1
  refine h1.trans (le_of_eq ?_)
  norm_num [Nat.descFactorial_one]
  ring

/-- C87 for Gauss-Legendre in binary64: the algebraic term and the rounding term of C55 -/
theorem C87_legendre_binary64 [L : Libm] (hL : AccurateTrig L) (mode : Overflow) {n : ℕ} (hn : 0 < n) (hmax : n ≤ 10 ^ 12) :
    ∃ r : Rule F64, GaussLegendre.new mode n = some r ∧
      ∀ (a b : F64) (f : F64 → F64) (g : ℝ → ℝ) (B M Λ η K : ℝ) (k : ℕ), a.isFinite = true → b.isFinite = true → |(a.val : ℝ)| ≤ B → |(b.val : ℝ)| ≤ B →
      B ≤ 2 ^ 400 → let D := |(b.val : ℝ) - a.val|; let ρ := 4 / 10 ^ 15 * B + 1 / 2 ^ 1000; let κ := η + Λ * ρ;
      let E := fun d : ℕ => D * (1.01 * κ + (1 / 10 ^ 14 + 1.2 / 10 ^ 16 * d) * (M + κ)) + 1 / 2 ^ 500 + 2 * D * ((Real.pi ^ 2 / 4 * D) ^ (k + 1) * K / (2 * n + 1).descFactorial (k + 1));
      Computes f g (around a.val b.val ρ) M Λ η → 0 ≤ Λ → M + κ ≤ 2 ^ 400 → (a.val : ℝ) ≠ b.val → k < 2 * n → SmoothBetween g a.val b.val k K →
      (((AnyRule.legendre r).value a b f).isFinite = true ∧ |(((AnyRule.legendre r).value a b f).val : ℝ) - ∫ t in (a.val : ℝ)..b.val, g t| ≤ E n) ∧
      (∀ s, roundings s n ≤ 10 ^ 12 → ((AnyRule.legendre r).parIntegrate s s a b f).isFinite = true ∧
        |(((AnyRule.legendre r).parIntegrate s s a b f).val : ℝ) - ∫ t in (a.val : ℝ)..b.val, g t| ≤ E (roundings s n)) := by
  obtain ⟨r, hr, G, hlen, hex, hC⟩ := C55_integrate hL mode hn hmax
  refine ⟨r, hr, ?_⟩
  intro a b f g B M Λ η K k ha hb haB hbB hB
  dsimp only
  intro hf hΛ hK hab hk hg
  have h := hC a b f g B M Λ η ha hb haB hbB hB
  dsimp only at h
  obtain ⟨h1, h2, -⟩ := h hf hΛ hK
  have hex' : ExactUpTo G (2 * G.length - 1) (Set.Ioo (-1) 1) (fun _ => 1) 1 := by rw [hlen]; exact hex
  have h3 := (interval_smooth hn hlen one_pos hex' posDef_one (fun x _ => zero_le_one) integrable_one hab hk hg).2
  have hmass : (∫ _ in Set.Ioo (-1 : ℝ) 1, (1 : ℝ)) = 2 := by simp; norm_num
  rw [hmass] at h3
  simp only [mul_one, one_mul, hlen] at h3
  rw [show |(b.val : ℝ) - a.val| * ((Real.pi ^ 2 / 4 * |(b.val : ℝ) - a.val|) ^ (k + 1) * K / (2 * n + 1).descFactorial (k + 1)) * 2 = 2 * |(b.val : ℝ) - a.val| * ((Real.pi ^ 2 / 4 * |(b.val : ℝ) - a.val|) ^ (k + 1) * K / (2 * n + 1).descFactorial (k + 1)) by ring] at h3
  exact ⟨⟨h1.1, abs_total h1.2 h3⟩, fun s hs => ⟨(h2 s hs).1, abs_total (h2 s hs).2 h3⟩⟩

/-- C87 for Gauss-Chebyshev of the first kind in binary64 -/
theorem C87_chebyshev_first_binary64 [L : Libm] (hL : AccurateTrig L) (mode : Overflow) {n : ℕ} (hn : 0 < n) (hmax : n ≤ 10 ^ 12) :
    ∃ r : Rule F64, GaussChebyshevFirstKind.new mode n = some r ∧
      ∀ (a b : F64) (f : F64 → F64) (g : ℝ → ℝ) (B M Λ η K : ℝ) (k : ℕ), a.isFinite = true → b.isFinite = true → |(a.val : ℝ)| ≤ B → |(b.val : ℝ)| ≤ B →
      B ≤ 2 ^ 400 → let D := |(b.val : ℝ) - a.val|; let ρ := 4 / 10 ^ 15 * B + 1 / 2 ^ 1000; let κ := η + Λ * ρ;
      let T := ∫ t in (a.val : ℝ)..b.val, g t * (1 / Real.sqrt (1 - ((2 * t - a.val - b.val) / (b.val - a.val)) ^ 2));
      let E := fun d : ℕ => D * (1.6 * κ + (1 / 10 ^ 15 + 1.8 / 10 ^ 16 * d) * (M + κ)) + 1 / 2 ^ 500 + D * ((Real.pi ^ 2 / 4 * D) ^ (k + 1) * K / (2 * n + 1).descFactorial (k + 1)) * Real.pi;
      Computes f g (around a.val b.val ρ) M Λ η → 0 ≤ Λ → M + κ ≤ 2 ^ 400 → (a.val : ℝ) ≠ b.val → k < 2 * n → SmoothBetween g a.val b.val k K →
      (((AnyRule.chebyshevFirst r).value a b f).isFinite = true ∧ |(((AnyRule.chebyshevFirst r).value a b f).val : ℝ) - T| ≤ E n) ∧
      (∀ s, roundings s n ≤ 10 ^ 12 → ((AnyRule.chebyshevFirst r).parIntegrate s s a b f).isFinite = true ∧
        |(((AnyRule.chebyshevFirst r).parIntegrate s s a b f).val : ℝ) - T| ≤ E (roundings s n)) := by
  obtain ⟨r, hr, hC⟩ := C57_first_kind hL mode hn hmax
  refine ⟨r, hr, ?_⟩
  intro a b f g B M Λ η K k ha hb haB hbB hB
  dsimp only
  intro hf hΛ hK hab hk hg
  have h := hC a b f g B M Λ η ha hb haB hbB hB
  dsimp only at h
  obtain ⟨h1, h2, -⟩ := h hf hΛ hK
  have h3 := (interval_smooth (L := pairs1 n) (w := chebW1) hn (length_pairs1 n) one_pos (exact1 hn) posDef_cheb1
      (fun x _ => by unfold chebW1; positivity) integrableOn_cheb1 hab hk hg).2
  have hm := gauss_mass (exact1 hn)
  rw [one_mul] at hm
  rw [← hm, show (List.map Prod.snd (pairs1 n)).sum = Real.pi from mass1 hn, one_mul, one_mul, quad_pairs1] at h3
  exact ⟨⟨h1.1, abs_total h1.2 h3⟩, fun s hs => ⟨(h2 s hs).1, abs_total (h2 s hs).2 h3⟩⟩

/-- C87 for Gauss-Chebyshev of the second kind in binary64 -/
theorem C87_chebyshev_second_binary64 [L : Libm] (hL : AccurateTrig L) (hS : AccurateSin L) (mode : Overflow) {n : ℕ} (hn : 0 < n) (hmax : n ≤ 10 ^ 12) :
    ∃ r : Rule F64, GaussChebyshevSecondKind.new mode n = some r ∧
      ∀ (a b : F64) (f : F64 → F64) (g : ℝ → ℝ) (B M Λ η K : ℝ) (k : ℕ), a.isFinite = true → b.isFinite = true → |(a.val : ℝ)| ≤ B → |(b.val : ℝ)| ≤ B →
      B ≤ 2 ^ 400 → let D := |(b.val : ℝ) - a.val|; let ρ := 4 / 10 ^ 15 * B + 1 / 2 ^ 1000; let κ := η + Λ * ρ;
      let T := ∫ t in (a.val : ℝ)..b.val, g t * Real.sqrt (1 - ((2 * t - a.val - b.val) / (b.val - a.val)) ^ 2);
      let E := fun d : ℕ => D * (0.8 * κ + (6 / 10 ^ 15 + 9 / 10 ^ 17 * d) * (M + κ)) + 1 / 2 ^ 500 + D * ((Real.pi ^ 2 / 4 * D) ^ (k + 1) * K / (2 * n + 1).descFactorial (k + 1)) * (Real.pi / 2);
      Computes f g (around a.val b.val ρ) M Λ η → 0 ≤ Λ → M + κ ≤ 2 ^ 400 → (a.val : ℝ) ≠ b.val → k < 2 * n → SmoothBetween g a.val b.val k K →
      (((AnyRule.chebyshevSecond r).value a b f).isFinite = true ∧ |(((AnyRule.chebyshevSecond r).value a b f).val : ℝ) - T| ≤ E n) ∧
      (∀ s, roundings s n ≤ 10 ^ 12 → ((AnyRule.chebyshevSecond r).parIntegrate s s a b f).isFinite = true ∧
        |(((AnyRule.chebyshevSecond r).parIntegrate s s a b f).val : ℝ) - T| ≤ E (roundings s n)) := by
  obtain ⟨r, hr, hC⟩ := C57_second_kind hL hS mode hn hmax
  refine ⟨r, hr, ?_⟩
  intro a b f g B M Λ η K k ha hb haB hbB hB
  dsimp only
  intro hf hΛ hK hab hk hg
  have h := hC a b f g B M Λ η ha hb haB hbB hB
  dsimp only at h
  obtain ⟨h1, h2, -⟩ := h hf hΛ hK
  have h3 := (interval_smooth (L := pairs2 n) (w := chebW2) hn (length_pairs2 n) one_pos (exact2 hn) posDef_cheb2
      (fun x _ => by unfold chebW2; positivity) integrableOn_cheb2 hab hk hg).2
  rw [integral_chebW2, one_mul, one_mul, quad_pairs2] at h3
  exact ⟨⟨h1.1, abs_total h1.2 h3⟩, fun s hs => ⟨(h2 s hs).1, abs_total (h2 s hs).2 h3⟩⟩


end GaussQuad.Props
