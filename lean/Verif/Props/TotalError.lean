import Verif.Props.GaussError
import Verif.Props.LegendreF64Integral
import Verif.Props.ChebyshevF64Integral
import Verif.Props.JacobiF64

/-!
# C67: the total error of Gauss integration in binary64

The value `integrate` (or `par_integrate`) returns in binary64 against the integral itself, for an integrand with `2n` continuous derivatives: the rounding bounds of C55, C57, C61, C63
and C65 plus the remainder of the Gauss rule (C66).
-/

set_option exponentiation.threshold 3000

namespace GaussQuad.Props
open Polynomial Spec FloatOps F64 MeasureTheory

theorem abs_total {v I T E R : ℝ} (h1 : |v - I| ≤ E) (h2 : |I - T| ≤ R) : |v - T| ≤ E + R := (abs_sub_le v I T).trans (add_le_add h1 h2)

/-- C67 for Gauss-Legendre -/
theorem C67_legendre [L : Libm] (hL : AccurateTrig L) (mode : Overflow) {n : ℕ} (hn : 0 < n) (hmax : n ≤ 10 ^ 12) :
    ∃ r : Rule F64, GaussLegendre.new mode n = some r ∧
      ∀ (a b : F64) (f : F64 → F64) (g : ℝ → ℝ) (B M Λ η K : ℝ), a.isFinite = true → b.isFinite = true → |(a.val : ℝ)| ≤ B → |(b.val : ℝ)| ≤ B →
      B ≤ 2 ^ 400 → let D := |(b.val : ℝ) - a.val|; let ρ := 4 / 10 ^ 15 * B + 1 / 2 ^ 1000; let κ := η + Λ * ρ;
      let E := fun d : ℕ => D * (1.01 * κ + (1 / 10 ^ 14 + 1.2 / 10 ^ 16 * d) * (M + κ)) + 1 / 2 ^ 500 +
        K * D ^ (2 * n + 1) * (n.factorial : ℝ) ^ 4 / ((2 * n + 1) * ((2 * n).factorial : ℝ) ^ 3);
      Computes f g (around a.val b.val ρ) M Λ η → 0 ≤ Λ → M + κ ≤ 2 ^ 400 → SmoothOn g (2 * n) K (Set.uIoo a.val b.val) →
      (((AnyRule.legendre r).value a b f).isFinite = true ∧ |(((AnyRule.legendre r).value a b f).val : ℝ) - ∫ t in (a.val : ℝ)..b.val, g t| ≤ E n) ∧
      (∀ s, roundings s n ≤ 10 ^ 12 → ((AnyRule.legendre r).parIntegrate s s a b f).isFinite = true ∧
        |(((AnyRule.legendre r).parIntegrate s s a b f).val : ℝ) - ∫ t in (a.val : ℝ)..b.val, g t| ≤ E (roundings s n)) := by
  obtain ⟨r, hr, G, hlen, hex, hC⟩ := C55_integrate hL mode hn hmax
  refine ⟨r, hr, ?_⟩
  intro a b f g B M Λ η K ha hb haB hbB hB
  dsimp only
  intro hf hΛ hK hg
  have h := hC a b f g B M Λ η ha hb haB hbB hB
  dsimp only at h
  obtain ⟨h1, h2, -⟩ := h hf hΛ hK
  have h3 : |((b.val : ℝ) - a.val) / 2 * quad G (fun x => g (((b.val : ℝ) - a.val) / 2 * x + (a.val + b.val) / 2)) - ∫ t in (a.val : ℝ)..b.val, g t| ≤
      K * |(b.val : ℝ) - a.val| ^ (2 * n + 1) * (n.factorial : ℝ) ^ 4 / ((2 * n + 1) * ((2 * n).factorial : ℝ) ^ 3) := by
    by_cases hab : (a.val : ℝ) = b.val
    · rw [hab]; simp
    have hex' : ExactUpTo G (2 * G.length - 1) (Set.Ioo (-1) 1) (fun _ => 1) 1 := by rw [hlen]; exact hex
    have hL : 0 < G.length := by omega
    have h := (interval_remainder hL one_pos hex' posDef_one (fun x _ => zero_le_one) integrable_one hab (g := g) (K := K)
      (by rw [hlen]; exact hg)).2
    rw [legendre_norm hL one_pos hex', hlen, one_mul, one_mul] at h
    simp only [mul_one] at h
    refine h.trans (le_of_eq ?_)
    rw [div_pow]; field_simp
  exact ⟨⟨h1.1, abs_total h1.2 h3⟩, fun s hs => ⟨(h2 s hs).1, abs_total (h2 s hs).2 h3⟩⟩

/-- C67 for Gauss-Chebyshev of the first kind -/
theorem C67_chebyshev_first [L : Libm] (hL : AccurateTrig L) (mode : Overflow) {n : ℕ} (hn : 0 < n) (hmax : n ≤ 10 ^ 12) :
    ∃ r : Rule F64, GaussChebyshevFirstKind.new mode n = some r ∧
      ∀ (a b : F64) (f : F64 → F64) (g : ℝ → ℝ) (B M Λ η K : ℝ), a.isFinite = true → b.isFinite = true → |(a.val : ℝ)| ≤ B → |(b.val : ℝ)| ≤ B →
      B ≤ 2 ^ 400 → a.val ≠ b.val → let D := |(b.val : ℝ) - a.val|; let ρ := 4 / 10 ^ 15 * B + 1 / 2 ^ 1000; let κ := η + Λ * ρ;
      let T := ∫ t in (a.val : ℝ)..b.val, g t * (1 / Real.sqrt (1 - ((2 * t - a.val - b.val) / (b.val - a.val)) ^ 2));
      let E := fun d : ℕ => D * (1.6 * κ + (1 / 10 ^ 15 + 1.8 / 10 ^ 16 * d) * (M + κ)) + 1 / 2 ^ 500 +
        K * (D / 2) ^ (2 * n + 1) / (2 * n).factorial * (Real.pi / 2 ^ (2 * n - 1));
      Computes f g (around a.val b.val ρ) M Λ η → 0 ≤ Λ → M + κ ≤ 2 ^ 400 → SmoothOn g (2 * n) K (Set.uIoo a.val b.val) →
      (((AnyRule.chebyshevFirst r).value a b f).isFinite = true ∧ |(((AnyRule.chebyshevFirst r).value a b f).val : ℝ) - T| ≤ E n) ∧
      (∀ s, roundings s n ≤ 10 ^ 12 → ((AnyRule.chebyshevFirst r).parIntegrate s s a b f).isFinite = true ∧
        |(((AnyRule.chebyshevFirst r).parIntegrate s s a b f).val : ℝ) - T| ≤ E (roundings s n)) := by
  obtain ⟨r, hr, hC⟩ := C57_first_kind hL mode hn hmax
  refine ⟨r, hr, ?_⟩
  intro a b f g B M Λ η K ha hb haB hbB hB hab
  dsimp only
  intro hf hΛ hK hg
  have h := hC a b f g B M Λ η ha hb haB hbB hB
  dsimp only at h
  obtain ⟨h1, h2, -⟩ := h hf hΛ hK
  have hab' : (a.val : ℝ) ≠ b.val := by exact_mod_cast hab
  have h3 := (interval_remainder (L := pairs1 n) (w := chebW1) (by rwa [length_pairs1]) one_pos (exact1 hn) posDef_cheb1
      (fun x _ => by unfold chebW1; positivity) integrableOn_cheb1 hab' (by rw [length_pairs1]; exact hg)).2
  rw [cheb1_norm (by rwa [length_pairs1]) one_pos (exact1 hn), length_pairs1, one_mul, one_mul, quad_pairs1] at h3
  exact ⟨⟨h1.1, abs_total h1.2 h3⟩, fun s hs => ⟨(h2 s hs).1, abs_total (h2 s hs).2 h3⟩⟩

/-- C67 for Gauss-Chebyshev of the second kind -/
theorem C67_chebyshev_second [L : Libm] (hL : AccurateTrig L) (hS : AccurateSin L) (mode : Overflow) {n : ℕ} (hn : 0 < n) (hmax : n ≤ 10 ^ 12) :
    ∃ r : Rule F64, GaussChebyshevSecondKind.new mode n = some r ∧
      ∀ (a b : F64) (f : F64 → F64) (g : ℝ → ℝ) (B M Λ η K : ℝ), a.isFinite = true → b.isFinite = true → |(a.val : ℝ)| ≤ B → |(b.val : ℝ)| ≤ B →
      B ≤ 2 ^ 400 → a.val ≠ b.val → let D := |(b.val : ℝ) - a.val|; let ρ := 4 / 10 ^ 15 * B + 1 / 2 ^ 1000; let κ := η + Λ * ρ;
      let T := ∫ t in (a.val : ℝ)..b.val, g t * Real.sqrt (1 - ((2 * t - a.val - b.val) / (b.val - a.val)) ^ 2);
      let E := fun d : ℕ => D * (0.8 * κ + (6 / 10 ^ 15 + 9 / 10 ^ 17 * d) * (M + κ)) + 1 / 2 ^ 500 +
        K * (D / 2) ^ (2 * n + 1) / (2 * n).factorial * (Real.pi / 2 ^ (2 * n + 1));
      Computes f g (around a.val b.val ρ) M Λ η → 0 ≤ Λ → M + κ ≤ 2 ^ 400 → SmoothOn g (2 * n) K (Set.uIoo a.val b.val) →
      (((AnyRule.chebyshevSecond r).value a b f).isFinite = true ∧ |(((AnyRule.chebyshevSecond r).value a b f).val : ℝ) - T| ≤ E n) ∧
      (∀ s, roundings s n ≤ 10 ^ 12 → ((AnyRule.chebyshevSecond r).parIntegrate s s a b f).isFinite = true ∧
        |(((AnyRule.chebyshevSecond r).parIntegrate s s a b f).val : ℝ) - T| ≤ E (roundings s n)) := by
  obtain ⟨r, hr, hC⟩ := C57_second_kind hL hS mode hn hmax
  refine ⟨r, hr, ?_⟩
  intro a b f g B M Λ η K ha hb haB hbB hB hab
  dsimp only
  intro hf hΛ hK hg
  have h := hC a b f g B M Λ η ha hb haB hbB hB
  dsimp only at h
  obtain ⟨h1, h2, -⟩ := h hf hΛ hK
  have hab' : (a.val : ℝ) ≠ b.val := by exact_mod_cast hab
  have h3 := (interval_remainder (L := pairs2 n) (w := chebW2) (by rwa [length_pairs2]) one_pos (exact2 hn) posDef_cheb2
      (fun x _ => by unfold chebW2; positivity) integrableOn_cheb2 hab' (by rw [length_pairs2]; exact hg)).2
  rw [cheb2_norm (by rwa [length_pairs2]) one_pos (exact2 hn), length_pairs2, one_mul, one_mul, quad_pairs2] at h3
  exact ⟨⟨h1.1, abs_total h1.2 h3⟩, fun s hs => ⟨(h2 s hs).1, abs_total (h2 s hs).2 h3⟩⟩

/-- C67 for Gauss-Hermite -/
theorem C67_hermite [L : Libm] (hs : AccurateSqrt L) {ext : Externals F64} {n : ℕ} (hn : 0 < n) (hn1 : n ≤ 10 ^ 12) {ε : ℝ} (hst : StableSolver ext n ε)
    (hε : 0 ≤ ε) (hε1 : ε ≤ 0.01) :
    ∃ r : Rule F64, GaussHermite.new ext n = some r ∧
      ∀ (a b : F64) (f : F64 → F64) (g : ℝ → ℝ) (B M Λ κ K : ℝ), let η := 1.23 * n * (ε + 4 * (1 / 2 ^ 53));
      let E := fun d : ℕ => Real.sqrt Real.pi * (Λ * η + (2.01 * ε + 5 * (1 / 2 ^ 53)) * M + 1.05 * κ + 1.1 * (d + 1) * (1 / 2 ^ 53 * (M + κ))) + 1 / 2 ^ 1000 +
        K / (2 * n).factorial * (Real.sqrt Real.pi * n.factorial / 2 ^ n);
      Real.sqrt (2 * n) + η ≤ B → Computes f g (Set.Icc (-B) B) M Λ κ → 0 ≤ Λ → M + κ ≤ 2 ^ 400 → SmoothOn g (2 * n) K Set.univ →
      (((AnyRule.hermite r).value a b f).isFinite = true ∧ |(((AnyRule.hermite r).value a b f).val : ℝ) - ∫ t, g t * Real.exp (-t ^ 2)| ≤ E n) ∧
      (∀ s, roundings s n ≤ 10 ^ 12 → ((AnyRule.hermite r).parIntegrate s s a b f).isFinite = true ∧
        |(((AnyRule.hermite r).parIntegrate s s a b f).val : ℝ) - ∫ t, g t * Real.exp (-t ^ 2)| ≤ E (roundings s n)) := by
  obtain ⟨r₀, -, hG⟩ := hermite_gauss exactSolver_exists hn
  have hex : ExactUpTo r₀.nodeWeightPairs (2 * n - 1) Set.univ (fun x => Real.exp (-x ^ 2)) 1 := by
    have := hG.exact'
    rw [hG.length] at this
    exact this
  obtain ⟨r, hr, hC⟩ := C61_hermite hs hn hn1 hst hε hε1 hG.length hG.sorted hex
  refine ⟨r, hr, ?_⟩
  intro a b f g B M Λ κ K
  dsimp only
  intro hB hf hΛ hK hg
  have h := hC a b f g B M Λ κ
  dsimp only at h
  obtain ⟨h1, h2, -⟩ := h hB hf hΛ hK
  have hL : 0 < r₀.nodeWeightPairs.length := by rw [hG.length]; exact hn
  have h3 := (gauss_remainder Set.ordConnected_univ MeasurableSet.univ hL one_pos hG.exact' (gauss_nodes_nodup one_pos hG.exact' posDef_hermite)
    (fun q _ => Set.mem_univ _) (fun x _ => (Real.exp_pos _).le) integrable_hermite (F := fun k => iteratedDeriv k g) (K := K)
    (by rw [hG.length]; exact hg.derivs isOpen_univ) (by rw [hG.length]; exact hg.bound)).2
  rw [hermite_norm hL one_pos hG.exact', hG.length, one_mul, one_mul, setIntegral_univ] at h3
  simp only [iteratedDeriv_zero] at h3
  exact ⟨⟨h1.1, abs_total h1.2 h3⟩, fun s hs => ⟨(h2 s hs).1, abs_total (h2 s hs).2 h3⟩⟩

/-- C67 for Gauss-Laguerre -/
theorem C67_laguerre [L : Libm] (hL : AccurateTrig L) (hP : AccuratePow L) (hs : AccurateSqrt L) {ext : Externals F64} {n : ℕ} (hn : 0 < n) (hn1 : n ≤ 10 ^ 12)
    {ε : ℝ} (hst : StableSolver ext n ε) (hε : 0 ≤ ε) (hε1 : ε ≤ 0.01) {al : FiniteAboveNegOne F64} {x : F64} (hal : FiniteAboveNegOne.new x = some al)
    (h168 : (x.val : ℝ) ≤ 168) :
    ∃ r : LaguerreRule F64, GaussLaguerre.new ext n al = some r ∧
      ∀ (a b : F64) (f : F64 → F64) (g : ℝ → ℝ) (lo hi M Λ κ K : ℝ), let η := 1.74 * Real.sqrt n * (2 * n + |(x.val : ℝ)|) * (ε + 4 * (1 / 2 ^ 53));
      let T := ∫ t in Set.Ioi 0, g t * (t ^ (x.val : ℝ) * Real.exp (-t));
      let E := fun d : ℕ => Real.Gamma (x.val + 1) * (Λ * η + (2.01 * ε + 1.3e-11) * M + 1.05 * κ + 1.1 * (d + 1) * (1 / 2 ^ 53 * (M + κ))) + 1 / 2 ^ 1000 +
        K / (2 * n).factorial * (n.factorial * Real.Gamma (n + x.val + 1));
      lo ≤ -η → 4 * n + 2 * |(x.val : ℝ)| + η ≤ hi → Computes f g (Set.Icc lo hi) M Λ κ → 0 ≤ Λ → Real.Gamma (x.val + 1) * (M + κ) ≤ 2 ^ 1012 →
      SmoothOn g (2 * n) K (Set.Ioi 0) →
      (((AnyRule.laguerre r).value a b f).isFinite = true ∧ |(((AnyRule.laguerre r).value a b f).val : ℝ) - T| ≤ E n) ∧
      (∀ s, roundings s n ≤ 10 ^ 12 → ((AnyRule.laguerre r).parIntegrate s s a b f).isFinite = true ∧
        |(((AnyRule.laguerre r).parIntegrate s s a b f).val : ℝ) - T| ≤ E (roundings s n)) := by
  have hα : -1 < (x.val : ℝ) := by
    have hv := (valid_of_new hal).2
    rw [eq_of_new hal] at hv
    have : ((-1 : ℚ) : ℝ) < (x.val : ℝ) := by exact_mod_cast hv
    push_cast at this
    exact this
  obtain ⟨G, hlen, hsort, hex⟩ := laguerre_rule_exists hn hα
  have hex' : ExactUpTo G (2 * G.length - 1) (Set.Ioi 0) (fun t => t ^ (x.val : ℝ) * Real.exp (-t)) 1 := by rw [hlen]; exact hex
  obtain ⟨r, hr, hC⟩ := C63_laguerre hL hP hs hn hn1 hst hε hε1 hal h168 hlen hsort hex
  refine ⟨r, hr, ?_⟩
  intro a b f g lo hi M Λ κ K
  dsimp only
  intro hlo hhi hf hΛ hK hg
  have h := hC a b f g lo hi M Λ κ
  dsimp only at h
  obtain ⟨h1, h2, -⟩ := h hlo hhi hf hΛ hK
  have hL : 0 < G.length := by rw [hlen]; exact hn
  have h3 := (gauss_remainder Set.ordConnected_Ioi measurableSet_Ioi hL one_pos hex' (gauss_nodes_nodup one_pos hex' (posDef_laguerre hα))
    (fun q hq => gauss_nodes_gt one_pos hex' (posDef_laguerre hα) (fun x hx => (show (0 : ℝ) < x from hx).le) q hq)
    (fun x hx => mul_nonneg (Real.rpow_nonneg (show (0 : ℝ) < x from hx).le _) (Real.exp_pos _).le) (integrable_laguerre hα) (F := fun k => iteratedDeriv k g) (K := K)
    (by rw [hlen]; exact hg.derivs isOpen_Ioi) (by rw [hlen]; exact hg.bound)).2
  rw [show weightIntegral (Set.Ioi 0) (fun t => t ^ (x.val : ℝ) * Real.exp (-t)) (Lagrange.nodal (nodeSet G) id ^ 2) = _ from laguerre_norm hα hL one_pos hex',
    hlen, one_mul, one_mul] at h3
  simp only [iteratedDeriv_zero] at h3
  exact ⟨⟨h1.1, abs_total h1.2 h3⟩, fun s hs => ⟨(h2 s hs).1, abs_total (h2 s hs).2 h3⟩⟩

/-- C67 for Gauss-Jacobi -/
theorem C67_jacobi [L : Libm] (hL : AccurateTrig L) (hP : AccuratePow L) (hs : AccurateSqrt L) (mode : Overflow) {ext : Externals F64} {n : ℕ} (hn : 0 < n)
    (hn1 : n ≤ 10 ^ 12) {ε : ℝ} (hst : StableSolver ext n ε) (hε : 0 ≤ ε) (hε1 : ε ≤ 0.01) {al be : FiniteAboveNegOne F64} {x y : F64}
    (hal : FiniteAboveNegOne.new x = some al) (hbe : FiniteAboveNegOne.new y = some be)
    (hR : (x.val : ℝ) + y.val ≤ 164 ∧ (2 : ℝ) ^ ((x.val : ℝ) + y.val + 1) * Real.Gamma (x.val + 1) * Real.Gamma (y.val + 1) ≤ 2 ^ 1000)
    {μ : ℝ} (hμ0 : 1 / 1000 ≤ μ) (hμ1 : μ ≤ 1) (hμ : μ ≤ |(x.val : ℝ) + y.val + 1|) (hμ2 : μ ≤ (x.val : ℝ) + y.val + 2)
    (hSN : (x.val : ℝ) + y.val < -1 → AccurateSinNeg L)
    (hd : ¬ (x.val = 0 ∧ y.val = 0) ∧ ¬ (x.val = -1 / 2 ∧ y.val = -1 / 2) ∧ ¬ (x.val = 1 / 2 ∧ y.val = 1 / 2))
    (hodd : n % 2 = 0 ∨ n = 1 ∨ x.val = y.val) :
    ∃ r : JacobiRule F64, GaussJacobi.new mode ext n al be = some r ∧
      ∀ (a b : F64) (B : ℝ) (f : F64 → F64) (g : ℝ → ℝ) (lo hi M Λ κ K : ℝ), let η := 3.6 * Real.sqrt n * (ε + 21 * (1 / 2 ^ 53) / μ); let m := jacobiMass x.val y.val;
      let D := |(b.val : ℝ) - a.val|; let τ := 6 * (1 / 2 ^ 53 * B) + 1 / 2 ^ 1000; let κ' := κ + Λ * τ;
      let E := fun d : ℕ => D * (m * (0.26 * (Λ * D * η) + 0.501 * ((2.01 * ε + 4.2e-11) * M) + 0.53 * κ' + (0.56 * d + 2.2) * (1 / 2 ^ 53 * (M + κ')))) + 1 / 2 ^ 490 +
        K * (D / 2) ^ (2 * n + 1) / (2 * n).factorial * jacNorm n x.val y.val;
      let T := ∫ t in (a.val : ℝ)..b.val, g t * ((1 - (2 * t - a.val - b.val) / (b.val - a.val)) ^ (x.val : ℝ) * (1 + (2 * t - a.val - b.val) / (b.val - a.val)) ^ (y.val : ℝ));
      a.isFinite = true → b.isFinite = true → a.val ≠ b.val → |(a.val : ℝ)| ≤ B → |(b.val : ℝ)| ≤ B → B ≤ 2 ^ 400 → η ≤ 0.001 →
      lo + D / 2 * η + τ ≤ min (a.val : ℝ) b.val → max (a.val : ℝ) b.val + D / 2 * η + τ ≤ hi → Computes f g (Set.Icc lo hi) M Λ κ → 0 ≤ Λ →
      m * (M + κ' + Λ * D) ≤ 2 ^ 500 → SmoothOn g (2 * n) K (Set.uIoo a.val b.val) →
      (((AnyRule.jacobi r).value a b f).isFinite = true ∧ |(((AnyRule.jacobi r).value a b f).val : ℝ) - T| ≤ E n) ∧
      (∀ s, roundings s n ≤ 10 ^ 12 → ((AnyRule.jacobi r).parIntegrate s s a b f).isFinite = true ∧
        |(((AnyRule.jacobi r).parIntegrate s s a b f).val : ℝ) - T| ≤ E (roundings s n)) := by
  have gt : ∀ {z : F64} {ga : FiniteAboveNegOne F64}, FiniteAboveNegOne.new z = some ga → -1 < (z.val : ℝ) := fun {z ga} h => by
    have hv := (valid_of_new h).2
    rw [eq_of_new h] at hv
    have : ((-1 : ℚ) : ℝ) < (z.val : ℝ) := by exact_mod_cast hv
    push_cast at this
    exact this
  have hα := gt hal
  have hβ := gt hbe
  have hsum : (x.val : ℝ) + y.val ≠ -1 := by
    intro h
    rw [h] at hμ
    norm_num at hμ
    linarith
  obtain ⟨G, hlen, hsort, hex⟩ := jacobi_rule_exists hn hα hβ hsum
  have hex' : ExactUpTo G (2 * G.length - 1) (Set.Ioo (-1) 1) (fun t => (1 - t) ^ (x.val : ℝ) * (1 + t) ^ (y.val : ℝ)) 1 := by rw [hlen]; exact hex
  obtain ⟨r, hr, hC⟩ := C65_jacobi hL hP hs mode hn hn1 hst hε hε1 hal hbe hR hμ0 hμ1 hμ hμ2 hSN hd hodd hlen hsort hex
  refine ⟨r, hr, ?_⟩
  intro a b B f g lo hi M Λ κ K
  dsimp only
  intro ha hb hab haB hbB hB hη hlo hhi hf hΛ hK hg
  have h := hC a b B f g lo hi M Λ κ
  dsimp only at h
  obtain ⟨h1, h2, -⟩ := h ha hb haB hbB hB hη hlo hhi hf hΛ hK
  have hL : 0 < G.length := by rw [hlen]; exact hn
  have h3 := (interval_remainder hL one_pos hex' (posDef_jacobi hα hβ)
    (fun x hx => mul_nonneg (Real.rpow_nonneg (by linarith [hx.2]) _) (Real.rpow_nonneg (by linarith [hx.1]) _)) (integrable_jacobi hα hβ)
    (by exact_mod_cast hab : (a.val : ℝ) ≠ b.val) (by rw [hlen]; exact hg)).2
  rw [show weightIntegral (Set.Ioo (-1) 1) (fun t => (1 - t) ^ (x.val : ℝ) * (1 + t) ^ (y.val : ℝ)) (Lagrange.nodal (nodeSet G) id ^ 2) = _ from
    jacobi_norm hα hβ hsum hL one_pos hex', hlen, one_mul, one_mul] at h3
  exact ⟨⟨h1.1, abs_total h1.2 h3⟩, fun s hs => ⟨(h2 s hs).1, abs_total (h2 s hs).2 h3⟩⟩

/-- a correctly rounded cosine meets the hypotheses -/
theorem cos_computes : ∃ f : F64 → F64, ∀ I, Computes f Real.cos I 1 1 (1 / 2 ^ 52) :=
  ⟨fun y => (exists_cos (Real.cos y.val) (Real.abs_cos_le_one _)).choose, fun _ => ⟨fun t _ => Real.abs_cos_le_one t,
    fun s _ t _ => by rw [one_mul]; exact Real.abs_cos_sub_cos_le s t, fun y _ _ => (exists_cos (Real.cos y.val) (Real.abs_cos_le_one _)).choose_spec⟩⟩

/-- the backend's own `cos`, integrated over `[1, 2]` in binary64 with 8 nodes: within `3e-14` of `sin 2 - sin 1` -/
example : ∃ L : Libm, ∃ (r : Rule F64) (a b : F64), a.val = 1 ∧ b.val = 2 ∧ GaussLegendre.new .checked 8 = some r ∧
    |(((AnyRule.legendre r).value a b L.cos).val : ℝ) - (Real.sin 2 - Real.sin 1)| ≤ 3e-14 := by
  obtain ⟨L, hL⟩ := accurateTrig_exists
  have d1 : (round 1 false).isFinite = true ∧ (round 1 false).val = 1 := by decide +kernel
  have d2 : (round 2 false).isFinite = true ∧ (round 2 false).val = 2 := by decide +kernel
  have e1 : (((round 1 false).val : ℚ) : ℝ) = 1 := by rw [d1.2]; norm_num
  have e2 : (((round 2 false).val : ℚ) : ℝ) = 2 := by rw [d2.2]; norm_num
  obtain ⟨r, hr, h⟩ := C67_legendre hL .checked (n := 8) (by norm_num) (by norm_num)
  refine ⟨L, r, _, _, d1.2, d2.2, hr, ?_⟩
  have h := h (round 1 false) (round 2 false) L.cos Real.cos 2 1 1 (1 / 2 ^ 52) 1 d1.1 d2.1 (by rw [e1]; norm_num) (by rw [e2]; norm_num) (by norm_num)
  rw [e1, e2] at h
  have h' := (h ⟨fun t _ => Real.abs_cos_le_one t, fun s _ t _ => by rw [one_mul]; exact Real.abs_cos_sub_cos_le s t, fun y hy ht => by
      have h1 : min (1 : ℝ) 2 = 1 := by norm_num
      have h2 : max (1 : ℝ) 2 = 2 := by norm_num
      have h3 : (4 : ℝ) / 10 ^ 15 * 2 + 1 / 2 ^ 1000 ≤ 1 := by norm_num
      unfold around at ht
      rw [h1, h2] at ht
      exact hL.cos y hy (by linarith [ht.1]) (by linarith [ht.2])⟩ zero_le_one (by norm_num) (smooth_cos _ _)).1.2
  rw [integral_cos] at h'
  refine h'.trans ?_
  rw [abs_of_pos (by norm_num : (0 : ℝ) < 2 - 1)]
  norm_num [Nat.factorial]

/-- `∫ cos t / √(1 - t²)` and `∫ cos t · √(1 - t²)` over `[-1, 1]` in binary64 with 6 nodes -/
example : ∃ _L : Libm, ∃ (f : F64 → F64) (a b : F64) (r r' : Rule F64), a.val = -1 ∧ b.val = 1 ∧ GaussChebyshevFirstKind.new .checked 6 = some r ∧
    GaussChebyshevSecondKind.new .checked 6 = some r' ∧
    |(((AnyRule.chebyshevFirst r).value a b f).val : ℝ) - ∫ t in (-1 : ℝ)..1, Real.cos t * (1 / Real.sqrt (1 - ((2 * t - -1 - 1) / (1 - -1)) ^ 2))| ≤ 6e-12 ∧
    |(((AnyRule.chebyshevSecond r').value a b f).val : ℝ) - ∫ t in (-1 : ℝ)..1, Real.cos t * Real.sqrt (1 - ((2 * t - -1 - 1) / (1 - -1)) ^ 2)| ≤ 2e-12 := by
  obtain ⟨L, hL, hS⟩ := accurateTrigSin_exists
  obtain ⟨f, hf⟩ := cos_computes
  have d1 : (round (-1) false).isFinite = true ∧ (round (-1) false).val = -1 := by decide +kernel
  have d2 : (round 1 false).isFinite = true ∧ (round 1 false).val = 1 := by decide +kernel
  have e1 : (((round (-1) false).val : ℚ) : ℝ) = -1 := by rw [d1.2]; norm_num
  have e2 : (((round 1 false).val : ℚ) : ℝ) = 1 := by rw [d2.2]; norm_num
  have hne : (round (-1) false).val ≠ (round 1 false).val := by rw [d1.2, d2.2]; norm_num
  obtain ⟨r, hr, h⟩ := C67_chebyshev_first hL .checked (n := 6) (by norm_num) (by norm_num)
  obtain ⟨r', hr', h'⟩ := C67_chebyshev_second hL hS .checked (n := 6) (by norm_num) (by norm_num)
  refine ⟨L, f, _, _, r, r', d1.2, d2.2, hr, hr', ?_⟩
  have h := h (round (-1) false) (round 1 false) f Real.cos 1 1 1 (1 / 2 ^ 52) 1 d1.1 d2.1 (by rw [e1]; norm_num) (by rw [e2]; norm_num) (by norm_num) hne
  have h' := h' (round (-1) false) (round 1 false) f Real.cos 1 1 1 (1 / 2 ^ 52) 1 d1.1 d2.1 (by rw [e1]; norm_num) (by rw [e2]; norm_num) (by norm_num) hne
  rw [e1, e2] at h h'
  have eD : |(1 : ℝ) - -1| = 2 := by rw [abs_of_pos (by norm_num)]; norm_num
  simp only [eD] at h h'
  have hp := Real.pi_lt_four
  refine ⟨((h (hf _) zero_le_one (by norm_num) (smooth_cos _ _)).1.2).trans ?_, ((h' (hf _) zero_le_one (by norm_num) (smooth_cos _ _)).1.2).trans ?_⟩
  · norm_num [Nat.factorial]
    linarith
  · norm_num [Nat.factorial]
    linarith

/-- `∫ cos t · e^(-t²)` in binary64 with 10 nodes and a rounded exact eigen-solver: within `3e-13` -/
example : ∃ _L : Libm, ∃ (ext : Externals F64) (f : F64 → F64) (r : Rule F64), GaussHermite.new ext 10 = some r ∧
    |(((AnyRule.hermite r).value (F64.zero false) (F64.zero false) f).val : ℝ) - ∫ t, Real.cos t * Real.exp (-t ^ 2)| ≤ 3e-13 := by
  obtain ⟨L, -, -, -, hs⟩ := accurateLibm_exists
  obtain ⟨f, hf⟩ := cos_computes
  have hst := stableSolver_exists (n := 10) (by norm_num)
  have hε : 3 * ((10 : ℕ) : ℝ) * U ≤ 3.4e-15 := by unfold U; norm_num
  have hε0 : 0 ≤ 3 * ((10 : ℕ) : ℝ) * U := by unfold U; positivity
  obtain ⟨r, hr, hv⟩ := C67_hermite hs (n := 10) (by norm_num) (by norm_num) hst hε0 (hε.trans (by norm_num))
  refine ⟨L, _, f, r, hr, ?_⟩
  have hpi2 : Real.sqrt Real.pi ≤ 2 := Real.sqrt_le_iff.2 ⟨by norm_num, by linarith [Real.pi_le_four]⟩
  have hpi0 := Real.sqrt_nonneg Real.pi
  have a2 := (hv (F64.zero false) (F64.zero false) f Real.cos _ 1 1 (1 / 2 ^ 52) 1 le_rfl (hf _) (by norm_num) (by norm_num) (smooth_cos _ _)).1.2
  refine a2.trans ?_
  have h5 : (1 : ℝ) * (1.23 * ((10 : ℕ) : ℝ) * (3 * ((10 : ℕ) : ℝ) * U + 4 * (1 / 2 ^ 53))) + (2.01 * (3 * ((10 : ℕ) : ℝ) * U) + 5 * (1 / 2 ^ 53)) * 1 + 1.05 * (1 / 2 ^ 52) +
      1.1 * (((10 : ℕ) : ℝ) + 1) * (1 / 2 ^ 53 * (1 + 1 / 2 ^ 52)) ≤ 1e-13 := by
    push_cast at hε ⊢
    linarith
  have h6 : 1 / ((2 * 10).factorial : ℝ) * (Real.sqrt Real.pi * (Nat.factorial 10 : ℝ) / 2 ^ 10) ≤ 3e-15 := by
    norm_num [Nat.factorial]
    linarith
  refine (add_le_add (add_le_add (mul_le_mul hpi2 h5 (by positivity) (by norm_num)) le_rfl) h6).trans ?_
  norm_num

/-- the hypotheses for Gauss-Laguerre with `α = 5/2` and 10 nodes are met by `cos` -/
example : ∃ _L : Libm, ∃ (ext : Externals F64) (f : F64 → F64) (x : F64) (al : FiniteAboveNegOne F64) (r : LaguerreRule F64), x.val = 5 / 2 ∧
    FiniteAboveNegOne.new x = some al ∧ GaussLaguerre.new ext 10 al = some r ∧
    |(((AnyRule.laguerre r).value (F64.zero false) (F64.zero false) f).val : ℝ) - ∫ t in Set.Ioi 0, Real.cos t * (t ^ (5 / 2 : ℝ) * Real.exp (-t))| ≤
      1e-9 + 1 / (20 : ℕ).factorial * ((10 : ℕ).factorial * Real.Gamma (10 + 5 / 2 + 1)) := by
  obtain ⟨L, hL, -, hP, hs⟩ := accurateLibm_exists
  obtain ⟨f, hf⟩ := cos_computes
  have hd : (round (5 / 2) false).isFinite = true ∧ (round (5 / 2) false).val = 5 / 2 := by decide +kernel
  have hnew : FiniteAboveNegOne.new (round (5 / 2) false) = some ⟨round (5 / 2) false⟩ := new_valid ⟨hd.1, by rw [hd.2]; norm_num⟩
  have e : (((round (5 / 2) false).val : ℚ) : ℝ) = 5 / 2 := by rw [hd.2]; norm_num
  have hst := stableSolver_exists (n := 10) (by norm_num)
  have hε0 : 0 ≤ 3 * ((10 : ℕ) : ℝ) * U := by unfold U; positivity
  have hε1 : 3 * ((10 : ℕ) : ℝ) * U ≤ 0.01 := by unfold U; norm_num
  obtain ⟨r, hr, hv⟩ := C67_laguerre hL hP hs (n := 10) (by norm_num) (by norm_num) hst hε0 hε1 hnew (by rw [e]; norm_num)
  have hG0 : 0 ≤ Real.Gamma (5 / 2 + 1) := (Real.Gamma_pos_of_pos (by norm_num)).le
  have hG1 : Real.Gamma (5 / 2 + 1) ≤ 6 := by
    have := Gamma_le_factorial (x := 5 / 2 + 1) (δ := 1) (k := 3) (by norm_num) one_pos le_rfl (by norm_num) (by norm_num)
    norm_num [Nat.factorial] at this ⊢
    exact this
  have hsq : Real.sqrt ((10 : ℕ) : ℝ) ≤ 3.2 := Real.sqrt_le_iff.2 ⟨by norm_num, by norm_num⟩
  have hε' : 3 * ((10 : ℕ) : ℝ) * U + 4 * (1 / 2 ^ 53) ≤ 4e-15 := by unfold U; norm_num
  have hη : 1.74 * Real.sqrt ((10 : ℕ) : ℝ) * (2 * ((10 : ℕ) : ℝ) + |(5 / 2 : ℝ)|) * (3 * ((10 : ℕ) : ℝ) * U + 4 * (1 / 2 ^ 53)) ≤ 1e-12 := by
    rw [abs_of_nonneg (by norm_num)]
    calc _ ≤ 1.74 * 3.2 * (2 * ((10 : ℕ) : ℝ) + 5 / 2) * 4e-15 :=
          mul_le_mul (mul_le_mul_of_nonneg_right (mul_le_mul_of_nonneg_left hsq (by norm_num)) (by positivity)) hε' (by positivity) (by positivity)
      _ ≤ _ := by norm_num
  have hω : 2.01 * (3 * ((10 : ℕ) : ℝ) * U) + 1.3e-11 ≤ 1.301e-11 := by unfold U; norm_num
  refine ⟨L, _, f, _, _, r, hd.2, hnew, hr, ?_⟩
  have h := hv (F64.zero false) (F64.zero false) f Real.cos _ _ 1 1 (1 / 2 ^ 52) 1 le_rfl le_rfl (hf _) (by norm_num)
  rw [e] at h
  have a2 := (h ((mul_le_mul_of_nonneg_right hG1 (by norm_num)).trans (by norm_num)) (smooth_cos _ _)).1.2
  refine a2.trans (add_le_add ?_ (le_of_eq (by push_cast; norm_num)))
  have h5 : (1 : ℝ) * (1.74 * Real.sqrt ((10 : ℕ) : ℝ) * (2 * ((10 : ℕ) : ℝ) + |(5 / 2 : ℝ)|) * (3 * ((10 : ℕ) : ℝ) * U + 4 * (1 / 2 ^ 53))) +
      (2.01 * (3 * ((10 : ℕ) : ℝ) * U) + 1.3e-11) * 1 + 1.05 * (1 / 2 ^ 52) + 1.1 * (((10 : ℕ) : ℝ) + 1) * (1 / 2 ^ 53 * (1 + 1 / 2 ^ 52)) ≤ 1e-10 := by
    calc _ ≤ 1 * 1e-12 + 1.301e-11 * 1 + 1.05 * (1 / 2 ^ 52) + 1.1 * (((10 : ℕ) : ℝ) + 1) * (1 / 2 ^ 53 * (1 + 1 / 2 ^ 52)) := by
          refine add_le_add (add_le_add (add_le_add (mul_le_mul_of_nonneg_left hη zero_le_one) (mul_le_mul_of_nonneg_right hω (by norm_num))) le_rfl) le_rfl
      _ ≤ _ := by norm_num
  refine (add_le_add (mul_le_mul hG1 h5 (by positivity) (by norm_num)) le_rfl).trans ?_
  norm_num

/-- the hypotheses for Gauss-Jacobi with `α = β = 1`, 4 nodes and `[-1, 3]` are met by `cos` -/
example : ∃ _L : Libm, ∃ (ext : Externals F64) (f : F64 → F64) (x a b : F64) (al : FiniteAboveNegOne F64) (r : JacobiRule F64), x.val = 1 ∧ a.val = -1 ∧ b.val = 3 ∧
    FiniteAboveNegOne.new x = some al ∧ GaussJacobi.new .checked ext 4 al al = some r ∧
    |(((AnyRule.jacobi r).value a b f).val : ℝ) - ∫ t in (-1 : ℝ)..3, Real.cos t * ((1 - (2 * t - -1 - 3) / (3 - -1)) ^ (1 : ℝ) * (1 + (2 * t - -1 - 3) / (3 - -1)) ^ (1 : ℝ))| ≤
      1e-7 + 1 * (4 / 2) ^ 9 / (8 : ℕ).factorial * jacNorm 4 1 1 := by
  obtain ⟨L, hL, -, hP, hs⟩ := accurateLibm_exists
  obtain ⟨f, hf⟩ := cos_computes
  have hd1 : (round 1 false).isFinite = true ∧ (round 1 false).val = 1 := by decide +kernel
  have hd2 : (round (-1) false).isFinite = true ∧ (round (-1) false).val = -1 := by decide +kernel
  have hd3 : (round 3 false).isFinite = true ∧ (round 3 false).val = 3 := by decide +kernel
  have hnew1 : FiniteAboveNegOne.new (round 1 false) = some ⟨round 1 false⟩ := new_valid ⟨hd1.1, by rw [hd1.2]; norm_num⟩
  have e1 : (((round 1 false).val : ℚ) : ℝ) = 1 := by rw [hd1.2]; norm_num
  have e2 : (((round (-1) false).val : ℚ) : ℝ) = -1 := by rw [hd2.2]; norm_num
  have e3 : (((round 3 false).val : ℚ) : ℝ) = 3 := by rw [hd3.2]; norm_num
  have hst := stableSolver_exists (n := 4) (by norm_num)
  have hε0 : 0 ≤ 3 * ((4 : ℕ) : ℝ) * U := by unfold U; positivity
  have hε1 : 3 * ((4 : ℕ) : ℝ) * U ≤ 0.01 := by unfold U; norm_num
  have hm : jacobiMass 1 1 ≤ 8 := by
    have h1 : Real.Gamma (1 + 1 + 2) = 6 := by
      have := Real.Gamma_nat_eq_factorial 3
      norm_num [Nat.factorial] at this ⊢
    have h2 : Real.Gamma (1 + 1) = 1 := by norm_num [Real.Gamma_two]
    have h3 : (2 : ℝ) ^ (1 + 1 + 1 : ℝ) = 8 := by norm_num
    unfold jacobiMass
    rw [h1, h2, h3]; norm_num
  have hm0 : 0 ≤ jacobiMass 1 1 := by
    have h1 := half_le_Gamma (by norm_num : (0 : ℝ) < 1 + 1 + 2)
    have h2 := half_le_Gamma (by norm_num : (0 : ℝ) < 1 + 1)
    unfold jacobiMass; positivity
  have nd : ¬ ((round 1 false).val = 0 ∧ (round 1 false).val = 0) ∧ ¬ ((round 1 false).val = -1 / 2 ∧ (round 1 false).val = -1 / 2) ∧
      ¬ ((round 1 false).val = 1 / 2 ∧ (round 1 false).val = 1 / 2) := by rw [hd1.2]; norm_num
  obtain ⟨r, hr, hv⟩ := C67_jacobi hL hP hs .checked (n := 4) (by norm_num) (by norm_num) hst hε0 hε1 hnew1 hnew1 (C64_range hnew1 hnew1 (by rw [e1]; norm_num)
    (by rw [e1]; norm_num)) (μ := 1) (by norm_num) le_rfl (by rw [e1]; norm_num) (by rw [e1]; norm_num)
    (fun h => absurd h (by rw [e1]; norm_num)) nd (Or.inl (by norm_num))
  have hω : 2.01 * (3 * ((4 : ℕ) : ℝ) * U) + 4.2e-11 ≤ 4.3e-11 := by unfold U; norm_num
  have hsq : Real.sqrt ((4 : ℕ) : ℝ) ≤ 2 := Real.sqrt_le_iff.2 ⟨by norm_num, by norm_num⟩
  have hε' : 3 * ((4 : ℕ) : ℝ) * U + 21 * (1 / 2 ^ 53) / 1 ≤ 6e-15 := by unfold U; norm_num
  refine ⟨L, _, f, _, _, _, _, r, hd1.2, hd2.2, hd3.2, hnew1, hr, ?_⟩
  have h := hv (round (-1) false) (round 3 false) 3 f Real.cos (-4) 4 1 1 (1 / 2 ^ 52) 1
  rw [e1, e2, e3] at h
  obtain ⟨η, hη⟩ : ∃ η, η = 3.6 * Real.sqrt ((4 : ℕ) : ℝ) * (3 * ((4 : ℕ) : ℝ) * U + 21 * (1 / 2 ^ 53) / 1) := ⟨_, rfl⟩
  rw [← hη] at h
  have hη1 : η ≤ 1e-13 := by
    rw [hη]
    calc _ ≤ 3.6 * 2 * 6e-15 := mul_le_mul (mul_le_mul_of_nonneg_left hsq (by norm_num)) hε' (by unfold U; positivity) (by positivity)
      _ ≤ _ := by norm_num
  have hη0 : 0 ≤ η := by rw [hη]; unfold U; positivity
  have hη2 : η ≤ 0.001 := hη1.trans (by norm_num)
  have eD : |(3 : ℝ) - -1| = 4 := by rw [abs_of_pos (by norm_num)]; norm_num
  simp only [eD] at h
  have hτ : 6 * (1 / 2 ^ 53 * 3) + 1 / 2 ^ 1000 ≤ (1e-14 : ℝ) := by norm_num
  have hτ0 : (0 : ℝ) ≤ 6 * (1 / 2 ^ 53 * 3) + 1 / 2 ^ 1000 := by positivity
  obtain ⟨τ, hτd⟩ : ∃ τ : ℝ, τ = 6 * (1 / 2 ^ 53 * 3) + 1 / 2 ^ 1000 := ⟨_, rfl⟩
  rw [← hτd] at h hτ hτ0
  have hτ2 : τ ≤ 0.001 := hτ.trans (by norm_num)
  have hk : (1 : ℝ) / 2 ^ 52 ≤ 0.001 := by norm_num
  have a2 := (h hd2.1 hd3.1 (by rw [hd2.2, hd3.2]; norm_num) (by rw [abs_neg, abs_one]; norm_num) (by rw [abs_of_pos (by norm_num)]) (by norm_num) hη2
    (by rw [min_eq_left (by norm_num)]; linarith) (by rw [max_eq_right (by norm_num)]; linarith) (hf _) (by norm_num) (by
      refine le_trans (mul_le_mul hm (by linarith : _ ≤ (10 : ℝ)) (by positivity) (by norm_num)) (by norm_num)) (smooth_cos _ _)).1.2
  refine a2.trans (add_le_add ?_ le_rfl)
  have h5 : 0.26 * (1 * 4 * η) + 0.501 * ((2.01 * (3 * ((4 : ℕ) : ℝ) * U) + 4.2e-11) * 1) + 0.53 * (1 / 2 ^ 52 + 1 * τ) +
      (0.56 * ((4 : ℕ) : ℝ) + 2.2) * (1 / 2 ^ 53 * (1 + (1 / 2 ^ 52 + 1 * τ))) ≤ 1.2e-10 := by
    calc _ ≤ 0.26 * (1 * 4 * 1e-13) + 0.501 * (4.3e-11 * 1) + 0.53 * (1 / 2 ^ 52 + 1 * 1e-14) +
          (0.56 * ((4 : ℕ) : ℝ) + 2.2) * (1 / 2 ^ 53 * (1 + (1 / 2 ^ 52 + 1 * 1e-14))) := by
          refine add_le_add (add_le_add (add_le_add ?_ ?_) ?_) ?_
          · exact mul_le_mul_of_nonneg_left (mul_le_mul_of_nonneg_left hη1 (by norm_num)) (by norm_num)
          · exact mul_le_mul_of_nonneg_left (mul_le_mul_of_nonneg_right hω (by norm_num)) (by norm_num)
          · exact mul_le_mul_of_nonneg_left (add_le_add le_rfl (mul_le_mul_of_nonneg_left hτ (by norm_num))) (by norm_num)
          · refine mul_le_mul_of_nonneg_left (mul_le_mul_of_nonneg_left (add_le_add le_rfl (add_le_add le_rfl (mul_le_mul_of_nonneg_left hτ (by norm_num)))) (by positivity)) (by positivity)
      _ ≤ _ := by norm_num
  refine (add_le_add (mul_le_mul_of_nonneg_left (mul_le_mul hm h5 (by unfold U; positivity) (by norm_num)) (by norm_num)) le_rfl).trans ?_
  norm_num

end GaussQuad.Props
