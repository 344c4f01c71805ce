import Verif.Props.TotalError

/-!
# C39, C67: the delegated parameter pairs of Gauss-Jacobi in binary64

For `(0, 0)`, `(-1/2, -1/2)` and `(1/2, 1/2)` the crate stores the Legendre and Chebyshev rules.  `integrate` and `par_integrate` then return the same bits as the methods of those
rules, so their error bounds carry over (C64, C65 and `C67_jacobi` exclude these pairs).
-/

set_option exponentiation.threshold 3000

namespace GaussQuad.Props
open Polynomial Spec FloatOps F64

/-- the stored parameters of a delegated pair, as equal floats -/
theorem feq_of_val [Libm] {x : F64} {ga : FiniteAboveNegOne F64} (hx : FiniteAboveNegOne.new x = some ga) {q : ℚ} {l : F64} (hl : l.isFinite = true ∧ l.val = q) (h : x.val = q) :
    feq ga.get l = true := by
  have hv := (valid_of_new hx).1
  obtain rfl := eq_of_new hx
  exact (eqb_finite hv hl.1).2 (h.trans hl.2.symm)

theorem lit_zero_val [Libm] : (lit 0.0 : F64).isFinite = true ∧ (lit 0.0 : F64).val = 0 := by
  change (round 0.0 false).isFinite = true ∧ (round 0.0 false).val = 0
  decide +kernel

theorem lit_neg_half_val [Libm] : (lit (-0.5) : F64).isFinite = true ∧ (lit (-0.5) : F64).val = -1 / 2 := by
  change (round (-0.5) false).isFinite = true ∧ (round (-0.5) false).val = -1 / 2
  decide +kernel

theorem lit_half_val [Libm] : (lit 0.5 : F64).isFinite = true ∧ (lit 0.5 : F64).val = 1 / 2 := by
  change (round 0.5 false).isFinite = true ∧ (round 0.5 false).val = 1 / 2
  decide +kernel

/-- C39: for the delegated pairs the Gauss-Jacobi methods return the same bits as the methods of the Legendre and Chebyshev rules of the same degree. -/
theorem C39_delegated_values [Libm] (mode : Overflow) (ext : Externals F64) (n : ℕ) {al be : FiniteAboveNegOne F64} {x y : F64}
    (hal : FiniteAboveNegOne.new x = some al) (hbe : FiniteAboveNegOne.new y = some be) :
    (x.val = 0 → y.val = 0 → ∀ r, GaussLegendre.new mode n = some r → ∃ r', GaussJacobi.new mode ext n al be = some r' ∧
      (∀ a b f, (AnyRule.jacobi r').value a b f = (AnyRule.legendre r).value a b f) ∧
      (∀ s s' a b f, (AnyRule.jacobi r').parIntegrate s s' a b f = (AnyRule.legendre r).parIntegrate s s' a b f)) ∧
    (x.val = -1 / 2 → y.val = -1 / 2 → ∀ r, GaussChebyshevFirstKind.new mode n = some r → ∃ r', GaussJacobi.new mode ext n al be = some r' ∧
      (∀ a b f, (AnyRule.jacobi r').value a b f = (AnyRule.chebyshevFirst r).value a b f) ∧
      (∀ s s' a b f, (AnyRule.jacobi r').parIntegrate s s' a b f = (AnyRule.chebyshevFirst r).parIntegrate s s' a b f)) ∧
    (x.val = 1 / 2 → y.val = 1 / 2 → ∀ r, GaussChebyshevSecondKind.new mode n = some r → ∃ r', GaussJacobi.new mode ext n al be = some r' ∧
      (∀ a b f, (AnyRule.jacobi r').value a b f = (AnyRule.chebyshevSecond r).value a b f) ∧
      (∀ s s' a b f, (AnyRule.jacobi r').parIntegrate s s' a b f = (AnyRule.chebyshevSecond r).parIntegrate s s' a b f)) := by
  have hd := C39_delegation_f64 mode ext n al be
  have get : ∀ {o : Option (JacobiRule F64)} {r : Rule F64}, o.map (·.toRule) = some r → ∃ r', o = some r' ∧ r'.toRule = r := fun {o r} h => by
    obtain ⟨r', h1, h2⟩ := Option.map_eq_some_iff.1 h
    exact ⟨r', h1, h2⟩
  refine ⟨fun hx hy r hr => ?_, fun hx hy r hr => ?_, fun hx hy r hr => ?_⟩
  · obtain ⟨r', h1, rfl⟩ := get ((hd.1 ⟨feq_of_val hal lit_zero_val hx, feq_of_val hbe lit_zero_val hy⟩).trans hr)
    exact ⟨r', h1, fun a b f => rfl, fun s s' a b f => rfl⟩
  · obtain ⟨r', h1, rfl⟩ := get ((hd.2.1 ⟨feq_of_val hal lit_neg_half_val hx, feq_of_val hbe lit_neg_half_val hy⟩).trans hr)
    exact ⟨r', h1, fun a b f => mul_comm' _ _, fun s s' a b f => mul_comm' _ _⟩
  · obtain ⟨r', h1, rfl⟩ := get ((hd.2.2 ⟨feq_of_val hal lit_half_val hx, feq_of_val hbe lit_half_val hy⟩).trans hr)
    exact ⟨r', h1, fun a b f => mul_comm' _ _, fun s s' a b f => mul_comm' _ _⟩

/-- C67 for Gauss-Jacobi with parameters `(0, 0)` -/
theorem C67_jacobi_zero [L : Libm] (hL : AccurateTrig L) (mode : Overflow) (ext : Externals F64) {n : ℕ} (hn : 0 < n) (hmax : n ≤ 10 ^ 12)
    {al be : FiniteAboveNegOne F64} {x y : F64} (hal : FiniteAboveNegOne.new x = some al) (hbe : FiniteAboveNegOne.new y = some be) (hx : x.val = 0) (hy : y.val = 0) :
    ∃ r : JacobiRule F64, GaussJacobi.new mode ext n al be = some r ∧
      ∀ (a b : F64) (f : F64 → F64) (g : ℝ → ℝ) (B M Λ η K : ℝ), a.isFinite = true → b.isFinite = true → |(a.val : ℝ)| ≤ B → |(b.val : ℝ)| ≤ B →
      B ≤ 2 ^ 400 → let D := |(b.val : ℝ) - a.val|; let ρ := 4 / 10 ^ 15 * B + 1 / 2 ^ 1000; let κ := η + Λ * ρ;
      let E := fun d : ℕ => D * (1.01 * κ + (1 / 10 ^ 14 + 1.2 / 10 ^ 16 * d) * (M + κ)) + 1 / 2 ^ 500 +
        K * D ^ (2 * n + 1) * (n.factorial : ℝ) ^ 4 / ((2 * n + 1) * ((2 * n).factorial : ℝ) ^ 3);
      Computes f g (around a.val b.val ρ) M Λ η → 0 ≤ Λ → M + κ ≤ 2 ^ 400 → SmoothOn g (2 * n) K (Set.uIoo a.val b.val) →
      (((AnyRule.jacobi r).value a b f).isFinite = true ∧ |(((AnyRule.jacobi r).value a b f).val : ℝ) - ∫ t in (a.val : ℝ)..b.val, g t| ≤ E n) ∧
      (∀ s, roundings s n ≤ 10 ^ 12 → ((AnyRule.jacobi r).parIntegrate s s a b f).isFinite = true ∧
        |(((AnyRule.jacobi r).parIntegrate s s a b f).val : ℝ) - ∫ t in (a.val : ℝ)..b.val, g t| ≤ E (roundings s n)) := by
  obtain ⟨r, hr, h⟩ := C67_legendre hL mode hn hmax
  obtain ⟨r', hr', h1, h2⟩ := (C39_delegated_values mode ext n hal hbe).1 hx hy r hr
  refine ⟨r', hr', ?_⟩
  simp only [h1, h2]
  exact h

/-- C67 for Gauss-Jacobi with parameters `(-1/2, -1/2)` -/
theorem C67_jacobi_neg_half [L : Libm] (hL : AccurateTrig L) (mode : Overflow) (ext : Externals F64) {n : ℕ} (hn : 0 < n) (hmax : n ≤ 10 ^ 12)
    {al be : FiniteAboveNegOne F64} {x y : F64} (hal : FiniteAboveNegOne.new x = some al) (hbe : FiniteAboveNegOne.new y = some be) (hx : x.val = -1 / 2) (hy : y.val = -1 / 2) :
    ∃ r : JacobiRule F64, GaussJacobi.new mode ext n al be = some r ∧
      ∀ (a b : F64) (f : F64 → F64) (g : ℝ → ℝ) (B M Λ η K : ℝ), a.isFinite = true → b.isFinite = true → |(a.val : ℝ)| ≤ B → |(b.val : ℝ)| ≤ B →
      B ≤ 2 ^ 400 → a.val ≠ b.val → let D := |(b.val : ℝ) - a.val|; let ρ := 4 / 10 ^ 15 * B + 1 / 2 ^ 1000; let κ := η + Λ * ρ;
      let T := ∫ t in (a.val : ℝ)..b.val, g t * (1 / Real.sqrt (1 - ((2 * t - a.val - b.val) / (b.val - a.val)) ^ 2));
      let E := fun d : ℕ => D * (1.6 * κ + (1 / 10 ^ 15 + 1.8 / 10 ^ 16 * d) * (M + κ)) + 1 / 2 ^ 500 +
        K * (D / 2) ^ (2 * n + 1) / (2 * n).factorial * (Real.pi / 2 ^ (2 * n - 1));
      Computes f g (around a.val b.val ρ) M Λ η → 0 ≤ Λ → M + κ ≤ 2 ^ 400 → SmoothOn g (2 * n) K (Set.uIoo a.val b.val) →
      (((AnyRule.jacobi r).value a b f).isFinite = true ∧ |(((AnyRule.jacobi r).value a b f).val : ℝ) - T| ≤ E n) ∧
      (∀ s, roundings s n ≤ 10 ^ 12 → ((AnyRule.jacobi r).parIntegrate s s a b f).isFinite = true ∧
        |(((AnyRule.jacobi r).parIntegrate s s a b f).val : ℝ) - T| ≤ E (roundings s n)) := by
  obtain ⟨r, hr, h⟩ := C67_chebyshev_first hL mode hn hmax
  obtain ⟨r', hr', h1, h2⟩ := (C39_delegated_values mode ext n hal hbe).2.1 hx hy r hr
  refine ⟨r', hr', ?_⟩
  simp only [h1, h2]
  exact h

/-- C67 for Gauss-Jacobi with parameters `(1/2, 1/2)` -/
theorem C67_jacobi_half [L : Libm] (hL : AccurateTrig L) (hS : AccurateSin L) (mode : Overflow) (ext : Externals F64) {n : ℕ} (hn : 0 < n) (hmax : n ≤ 10 ^ 12)
    {al be : FiniteAboveNegOne F64} {x y : F64} (hal : FiniteAboveNegOne.new x = some al) (hbe : FiniteAboveNegOne.new y = some be) (hx : x.val = 1 / 2) (hy : y.val = 1 / 2) :
    ∃ r : JacobiRule F64, GaussJacobi.new mode ext n al be = some r ∧
      ∀ (a b : F64) (f : F64 → F64) (g : ℝ → ℝ) (B M Λ η K : ℝ), a.isFinite = true → b.isFinite = true → |(a.val : ℝ)| ≤ B → |(b.val : ℝ)| ≤ B →
      B ≤ 2 ^ 400 → a.val ≠ b.val → let D := |(b.val : ℝ) - a.val|; let ρ := 4 / 10 ^ 15 * B + 1 / 2 ^ 1000; let κ := η + Λ * ρ;
      let T := ∫ t in (a.val : ℝ)..b.val, g t * Real.sqrt (1 - ((2 * t - a.val - b.val) / (b.val - a.val)) ^ 2);
      let E := fun d : ℕ => D * (0.8 * κ + (6 / 10 ^ 15 + 9 / 10 ^ 17 * d) * (M + κ)) + 1 / 2 ^ 500 +
        K * (D / 2) ^ (2 * n + 1) / (2 * n).factorial * (Real.pi / 2 ^ (2 * n + 1));
      Computes f g (around a.val b.val ρ) M Λ η → 0 ≤ Λ → M + κ ≤ 2 ^ 400 → SmoothOn g (2 * n) K (Set.uIoo a.val b.val) →
      (((AnyRule.jacobi r).value a b f).isFinite = true ∧ |(((AnyRule.jacobi r).value a b f).val : ℝ) - T| ≤ E n) ∧
      (∀ s, roundings s n ≤ 10 ^ 12 → ((AnyRule.jacobi r).parIntegrate s s a b f).isFinite = true ∧
        |(((AnyRule.jacobi r).parIntegrate s s a b f).val : ℝ) - T| ≤ E (roundings s n)) := by
  obtain ⟨r, hr, h⟩ := C67_chebyshev_second hL hS mode hn hmax
  obtain ⟨r', hr', h1, h2⟩ := (C39_delegated_values mode ext n hal hbe).2.2 hx hy r hr
  refine ⟨r', hr', ?_⟩
  simp only [h1, h2]
  exact h

/-- `∫ cos t · √(1 - t²)` over `[-1, 1]` in binary64 by Gauss-Jacobi with parameters `(1/2, 1/2)` and 6 nodes, with an arbitrary eigen-solver -/
example : ∃ _L : Libm, ∀ ext : Externals F64, ∃ (f : F64 → F64) (a b x : F64) (al : FiniteAboveNegOne F64) (r : JacobiRule F64), a.val = -1 ∧ b.val = 1 ∧ x.val = 1 / 2 ∧
    FiniteAboveNegOne.new x = some al ∧ GaussJacobi.new .checked ext 6 al al = some r ∧
    |(((AnyRule.jacobi r).value a b f).val : ℝ) - ∫ t in (-1 : ℝ)..1, Real.cos t * Real.sqrt (1 - ((2 * t - -1 - 1) / (1 - -1)) ^ 2)| ≤ 2e-12 := by
  obtain ⟨L, hL, hS⟩ := accurateTrigSin_exists
  refine ⟨L, fun ext => ?_⟩
  obtain ⟨f, hf⟩ := cos_computes
  have d1 : (round (-1) false).isFinite = true ∧ (round (-1) false).val = -1 := by decide +kernel
  have d2 : (round 1 false).isFinite = true ∧ (round 1 false).val = 1 := by decide +kernel
  have d3 : FiniteAboveNegOne.new (round (1 / 2) false) = some (⟨round (1 / 2) false⟩ : FiniteAboveNegOne F64) ∧ (round (1 / 2) false).val = 1 / 2 := by
    have h : (round (1 / 2) false).isFinite = true ∧ (round (1 / 2) false).val = 1 / 2 := by decide +kernel
    exact ⟨new_valid ⟨h.1, by rw [h.2]; norm_num⟩, h.2⟩
  have e1 : (((round (-1) false).val : ℚ) : ℝ) = -1 := by rw [d1.2]; norm_num
  have e2 : (((round 1 false).val : ℚ) : ℝ) = 1 := by rw [d2.2]; norm_num
  have hne : (round (-1) false).val ≠ (round 1 false).val := by rw [d1.2, d2.2]; norm_num
  obtain ⟨r, hr, h⟩ := C67_jacobi_half hL hS .checked ext (n := 6) (by norm_num) (by norm_num) d3.1 d3.1 d3.2 d3.2
  refine ⟨f, _, _, _, _, r, d1.2, d2.2, d3.2, d3.1, hr, ?_⟩
  have h := h (round (-1) false) (round 1 false) f Real.cos 1 1 1 (1 / 2 ^ 52) 1 d1.1 d2.1 (by rw [e1]; norm_num) (by rw [e2]; norm_num) (by norm_num) hne
  rw [e1, e2] at h
  have eD : |(1 : ℝ) - -1| = 2 := by rw [abs_of_pos (by norm_num)]; norm_num
  simp only [eD] at h
  have hp := Real.pi_lt_four
  refine ((h (hf _) zero_le_one (by norm_num) (smooth_cos _ _)).1.2).trans ?_
  norm_num [Nat.factorial]
  linarith

/-- parameters `-0.0` and `0.0`: five nodes, every integral equals the one of Gauss-Legendre; `(-1/2, -1/2)` in binary64 with an arbitrary eigen-solver -/
example [L : Libm] (ext : Externals F64) (r : Rule F64) (hr : GaussLegendre.new .checked 5 = some r) : ∃ r', GaussJacobi.new .checked ext 5 ⟨zero true⟩ ⟨zero false⟩ = some r' ∧
    ∀ a b f, (AnyRule.jacobi r').value a b f = (AnyRule.legendre r).value a b f :=
  let ⟨r', h1, h2, _⟩ := (C39_delegated_values .checked ext 5 (new_valid ⟨by decide +kernel, by decide +kernel⟩) (new_valid ⟨by decide +kernel, by decide +kernel⟩)).1
    (val_zero true) (val_zero false) r hr
  ⟨r', h1, h2⟩

/-- `∫ cos` over `[-1, 1]` by Gauss-Jacobi with parameters zero and by Gauss-Jacobi with parameters `-1/2` against the Chebyshev weight, 6 nodes -/
example : ∃ _L : Libm, ∀ ext : Externals F64, ∃ (f : F64 → F64) (r r' : JacobiRule F64),
    GaussJacobi.new .checked ext 6 ⟨zero false⟩ ⟨zero false⟩ = some r ∧ GaussJacobi.new .checked ext 6 ⟨round (-1 / 2) false⟩ ⟨round (-1 / 2) false⟩ = some r' ∧
    ((AnyRule.jacobi r).value (round (-1) false) (round 1 false) f).isFinite = true ∧ ((AnyRule.jacobi r').value (round (-1) false) (round 1 false) f).isFinite = true := by
  obtain ⟨L, hL, hS⟩ := accurateTrigSin_exists
  refine ⟨L, fun ext => ?_⟩
  obtain ⟨f, hf⟩ := cos_computes
  have d1 : (round (-1) false).isFinite = true ∧ (round (-1) false).val = -1 := by decide +kernel
  have d2 : (round 1 false).isFinite = true ∧ (round 1 false).val = 1 := by decide +kernel
  have d3 : (round (-1 / 2) false).isFinite = true ∧ (round (-1 / 2) false).val = -1 / 2 := by decide +kernel
  have e1 : (((round (-1) false).val : ℚ) : ℝ) = -1 := by rw [d1.2]; norm_num
  have e2 : (((round 1 false).val : ℚ) : ℝ) = 1 := by rw [d2.2]; norm_num
  have hne : (round (-1) false).val ≠ (round 1 false).val := by rw [d1.2, d2.2]; norm_num
  have hz : FiniteAboveNegOne.new (zero false) = some (⟨zero false⟩ : FiniteAboveNegOne F64) := new_valid ⟨by decide +kernel, by decide +kernel⟩
  have hm : FiniteAboveNegOne.new (round (-1 / 2) false) = some (⟨round (-1 / 2) false⟩ : FiniteAboveNegOne F64) := new_valid ⟨d3.1, by rw [d3.2]; norm_num⟩
  obtain ⟨r, hr, h⟩ := C67_jacobi_zero hL .checked ext (n := 6) (by norm_num) (by norm_num) hz hz (val_zero _) (val_zero _)
  obtain ⟨r', hr', h'⟩ := C67_jacobi_neg_half hL .checked ext (n := 6) (by norm_num) (by norm_num) hm hm d3.2 d3.2
  refine ⟨f, r, r', hr, hr', ?_, ?_⟩
  · exact ((h (round (-1) false) (round 1 false) f Real.cos 1 1 1 (1 / 2 ^ 52) 1 d1.1 d2.1 (by rw [e1]; norm_num) (by rw [e2]; norm_num) (by norm_num))
      (hf _) zero_le_one (by norm_num) (smooth_cos _ _)).1.1
  · exact ((h' (round (-1) false) (round 1 false) f Real.cos 1 1 1 (1 / 2 ^ 52) 1 d1.1 d2.1 (by rw [e1]; norm_num) (by rw [e2]; norm_num) (by norm_num) hne)
      (hf _) zero_le_one (by norm_num) (smooth_cos _ _)).1.1

end GaussQuad.Props
