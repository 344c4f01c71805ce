import Verif.Spec.ComputesContinuous
import Verif.Props.Modulus
import Verif.Props.NewtonCotesF64

/-!
# C115: every continuous integrand in binary64

The total error of `integrate` and `par_integrate` of the Gauss rules on finite intervals (`/repo/src/legendre/mod.rs:60-131`, `/repo/src/chebyshev/mod.rs:24-105, 150-217`,
`/repo/src/jacobi/mod.rs:75-199`) for an integrand of which only the modulus of continuity is known.
-/

set_option exponentiation.threshold 3000

namespace GaussQuad.Props
open Polynomial Spec FloatOps F64 MeasureTheory Bernstein Jackson

/-- a program computing a continuous function also computes a Lipschitz function, less accurately -/
theorem lipschitz_computes {f : F64 → F64} {g : ℝ → ℝ} {lo hi M δ ε η : ℝ} (hlh : lo ≤ hi) (hδ : 0 < δ) (h : ComputesContinuous f g (Set.Icc lo hi) M δ ε η) :
    ∃ φ : ℝ → ℝ, Computes f φ (Set.Icc lo hi) (M + ε / 2) (ε / δ) (η + ε / 2) ∧ ∀ t ∈ Set.Icc lo hi, |φ t - g t| ≤ ε / 2 := by
  obtain ⟨φ, h1, h2⟩ := exists_lipschitz hlh hδ h.oscillation
  refine ⟨φ, ⟨fun t ht => ?_, fun s _ t _ => h1 s t, fun y hy ht => ⟨(h.accurate y hy ht).1, ?_⟩⟩, fun t ht => by rw [abs_sub_comm]; exact h2 t ht⟩
  · have k1 := h2 t ht
    have k2 := h.bound t ht
    rw [_root_.abs_le] at k1 k2 ⊢
    constructor <;> linarith [k1.1, k1.2, k2.1, k2.2]
  · exact (abs_sub_le _ (g y.val) _).trans (add_le_add (h.accurate y hy ht).2 (h2 _ ht))

/-- the two quadrature sums -/
theorem quad_lipschitz {G : List (ℝ × ℝ)} {g φ : ℝ → ℝ} {a b ε m : ℝ} (h : ∀ t ∈ Set.uIcc a b, |φ t - g t| ≤ ε / 2) (hG : ∀ q ∈ G, q.1 ∈ Set.Icc (-1 : ℝ) 1)
    (hw : ∀ q ∈ G, 0 ≤ q.2) (hm : (G.map Prod.snd).sum = m) :
    |(b - a) / 2 * quad G (fun x => φ ((b - a) / 2 * x + (a + b) / 2)) - (b - a) / 2 * quad G (fun x => g ((b - a) / 2 * x + (a + b) / 2))| ≤ |b - a| * (ε / 4 * m) := by
  rw [← mul_sub, abs_mul, abs_div, abs_two, quad_sub]
  have h1 := abs_quad_le (f := fun x => φ ((b - a) / 2 * x + (a + b) / 2) - g ((b - a) / 2 * x + (a + b) / 2)) (ε := ε / 2) hw fun q hq =>
    h _ (mem_uIcc_of_Icc (a := a) (b := b) (hG q hq))
  rw [hm] at h1
  refine (mul_le_mul_of_nonneg_left h1 (by positivity)).trans (le_of_eq ?_)
  ring

theorem abs_total₃ {v I J T E Q R : ℝ} (h1 : |v - I| ≤ E) (h2 : |I - J| ≤ Q) (h3 : |J - T| ≤ R) : |v - T| ≤ E + (Q + R) :=
  abs_total h1 (abs_total h2 h3)

/-- what the binary64 theorems need about the integrand -/
theorem continuous_setup {f : F64 → F64} {g : ℝ → ℝ} {a b ρ M δ ε η : ℝ} (hδ : 0 < δ) (hρ : 0 ≤ ρ) (hf : ComputesContinuous f g (around a b ρ) M δ ε η) :
    0 ≤ ε / δ ∧ OscillationBetween g a b δ ε ∧
    ∃ φ : ℝ → ℝ, Computes f φ (around a b ρ) (M + ε / 2) (ε / δ) (η + ε / 2) ∧ ∀ t ∈ Set.uIcc a b, |φ t - g t| ≤ ε / 2 := by
  have hmin := min_le_max (a := a) (b := b)
  have hlo : min a b - ρ ≤ min a b := by linarith
  have hhi : max a b ≤ max a b + ρ := by linarith
  obtain ⟨φ, hφ, hclose⟩ := lipschitz_computes (by linarith) hδ hf
  have ho : OscillationBetween g a b δ ε := fun x hx y hy h =>
    hf.oscillation x ⟨hlo.trans hx.1, hx.2.trans hhi⟩ y ⟨hlo.trans hy.1, hy.2.trans hhi⟩ h
  have hε : 0 ≤ ε := (abs_nonneg _).trans (ho _ Set.left_mem_uIcc _ Set.left_mem_uIcc (by rw [_root_.sub_self, abs_zero]; exact hδ.le))
  exact ⟨div_nonneg hε hδ.le, ho, φ, hφ, fun t ht => hclose t ⟨hlo.trans ht.1, ht.2.trans hhi⟩⟩

theorem width_pos {a b : ℝ} (hab : a ≠ b) (n : ℕ) : 0 < |b - a| / (2 * n + 1) := div_pos (abs_pos.2 (sub_ne_zero.2 hab.symm)) (by positivity)

/-- C115 for Gauss-Legendre -/
theorem C115_legendre [L : Libm] (hL : AccurateTrig L) (mode : Overflow) {n : ℕ} (hn : 0 < n) (hmax : n ≤ 10 ^ 12) :
    ∃ r : Rule F64, GaussLegendre.new mode n = some r ∧
      ∀ (a b : F64) (f : F64 → F64) (g : ℝ → ℝ) (B M ε η : ℝ), a.isFinite = true → b.isFinite = true → |(a.val : ℝ)| ≤ B → |(b.val : ℝ)| ≤ B →
      B ≤ 2 ^ 400 → let D := |(b.val : ℝ) - a.val|; let ρ := 4 / 10 ^ 15 * B + 1 / 2 ^ 1000; let δ := D / (2 * n + 1); let κ := η + ε / 2 + ε / δ * ρ;
      let E := fun d : ℕ => D * (1.01 * κ + (1 / 10 ^ 14 + 1.2 / 10 ^ 16 * d) * (M + ε / 2 + κ)) + 1 / 2 ^ 500 + 6.5 * D * ε;
      a.val ≠ b.val → ContinuousOn g (Set.uIcc (a.val : ℝ) b.val) → ComputesContinuous f g (around a.val b.val ρ) M δ ε η → M + ε / 2 + κ ≤ 2 ^ 400 →
      (((AnyRule.legendre r).value a b f).isFinite = true ∧ |(((AnyRule.legendre r).value a b f).val : ℝ) - ∫ t in (a.val : ℝ)..b.val, g t| ≤ E n) ∧
      (∀ s, roundings s n ≤ 10 ^ 12 → ((AnyRule.legendre r).parIntegrate s s a b f).isFinite = true ∧
        |(((AnyRule.legendre r).parIntegrate s s a b f).val : ℝ) - ∫ t in (a.val : ℝ)..b.val, g t| ≤ E (roundings s n)) := by
  obtain ⟨r, hr, G, hlen, hex, hC⟩ := C55_integrate hL mode hn hmax
  refine ⟨r, hr, ?_⟩
  intro a b f g B M ε η ha hb haB hbB hB
  dsimp only
  intro hab hg hf hK
  have hab' : (a.val : ℝ) ≠ b.val := by exact_mod_cast hab
  have hB0 : 0 ≤ B := (abs_nonneg _).trans haB
  obtain ⟨hΛ, ho, φ, hφ, h4⟩ := continuous_setup (width_pos hab' n) (by positivity) hf
  have h := hC a b f φ B (M + ε / 2) (ε / (|(b.val : ℝ) - a.val| / (2 * n + 1))) (η + ε / 2) ha hb haB hbB hB
  dsimp only at h
  obtain ⟨h1, h2, -⟩ := h hφ hΛ hK
  have hex' : ExactUpTo G (2 * G.length - 1) (Set.Ioo (-1) 1) (fun _ => 1) 1 := by rw [hlen]; exact hex
  have h3 := (interval_modulus hn hlen one_pos hex' posDef_one (fun x _ => zero_le_one) integrable_one hab' hg ho).2
  have hmass : (∫ _ in Set.Ioo (-1 : ℝ) 1, (1 : ℝ)) = 2 := by simp; norm_num
  have hGm : (G.map Prod.snd).sum = 2 := by rw [gauss_mass hex', hmass, one_mul]
  have hGn : ∀ q ∈ G, q.1 ∈ Set.Icc (-1 : ℝ) 1 := fun q hq =>
    ⟨(gauss_nodes_gt one_pos hex' posDef_one (fun x hx => hx.1.le) q hq).le, (gauss_nodes_lt one_pos hex' posDef_one (fun x hx => hx.2.le) q hq).le⟩
  have hGw : ∀ q ∈ G, 0 ≤ q.2 := fun q hq => (gauss_weights_pos one_pos hex' posDef_one q hq).le
  have h4 := quad_lipschitz h4 hGn hGw hGm
  simp only [mul_one, one_mul, hmass] at h3
  have e : |(b.val : ℝ) - a.val| * (ε / 4 * 2) + |(b.val : ℝ) - a.val| * (3 * ε) * 2 = 6.5 * |(b.val : ℝ) - a.val| * ε := by ring
  rw [← e]
  exact ⟨⟨h1.1, abs_total₃ h1.2 h4 h3⟩, fun s hs => ⟨(h2 s hs).1, abs_total₃ (h2 s hs).2 h4 h3⟩⟩

/-- C115 for Gauss-Chebyshev of the first kind -/
theorem C115_chebyshev_first [L : Libm] (hL : AccurateTrig L) (mode : Overflow) {n : ℕ} (hn : 0 < n) (hmax : n ≤ 10 ^ 12) :
    ∃ r : Rule F64, GaussChebyshevFirstKind.new mode n = some r ∧
      ∀ (a b : F64) (f : F64 → F64) (g : ℝ → ℝ) (B M ε η : ℝ), a.isFinite = true → b.isFinite = true → |(a.val : ℝ)| ≤ B → |(b.val : ℝ)| ≤ B →
      B ≤ 2 ^ 400 → let D := |(b.val : ℝ) - a.val|; let ρ := 4 / 10 ^ 15 * B + 1 / 2 ^ 1000; let δ := D / (2 * n + 1); let κ := η + ε / 2 + ε / δ * ρ;
      let T := ∫ t in (a.val : ℝ)..b.val, g t * (1 / Real.sqrt (1 - ((2 * t - a.val - b.val) / (b.val - a.val)) ^ 2));
      let E := fun d : ℕ => D * (1.6 * κ + (1 / 10 ^ 15 + 1.8 / 10 ^ 16 * d) * (M + ε / 2 + κ)) + 1 / 2 ^ 500 + 3.25 * Real.pi * D * ε;
      a.val ≠ b.val → ContinuousOn g (Set.uIcc (a.val : ℝ) b.val) → ComputesContinuous f g (around a.val b.val ρ) M δ ε η → M + ε / 2 + κ ≤ 2 ^ 400 →
      (((AnyRule.chebyshevFirst r).value a b f).isFinite = true ∧ |(((AnyRule.chebyshevFirst r).value a b f).val : ℝ) - T| ≤ E n) ∧
      (∀ s, roundings s n ≤ 10 ^ 12 → ((AnyRule.chebyshevFirst r).parIntegrate s s a b f).isFinite = true ∧
        |(((AnyRule.chebyshevFirst r).parIntegrate s s a b f).val : ℝ) - T| ≤ E (roundings s n)) := by
  obtain ⟨r, hr, hC⟩ := C57_first_kind hL mode hn hmax
  refine ⟨r, hr, ?_⟩
  intro a b f g B M ε η ha hb haB hbB hB
  dsimp only
  intro hab hg hf hK
  have hab' : (a.val : ℝ) ≠ b.val := by exact_mod_cast hab
  have hB0 : 0 ≤ B := (abs_nonneg _).trans haB
  obtain ⟨hΛ, ho, φ, hφ, h4⟩ := continuous_setup (width_pos hab' n) (by positivity) hf
  have h := hC a b f φ B (M + ε / 2) (ε / (|(b.val : ℝ) - a.val| / (2 * n + 1))) (η + ε / 2) ha hb haB hbB hB
  dsimp only at h
  obtain ⟨h1, h2, -⟩ := h hφ hΛ hK
  have h3 := (interval_modulus (L := pairs1 n) (w := chebW1) hn (length_pairs1 n) one_pos (exact1 hn) posDef_cheb1
      (fun x _ => by unfold chebW1; positivity) integrableOn_cheb1 hab' hg ho).2
  have hm := gauss_mass (exact1 hn)
  rw [one_mul] at hm
  rw [← hm, show (List.map Prod.snd (pairs1 n)).sum = Real.pi from mass1 hn, one_mul, one_mul] at h3
  have h4 := quad_lipschitz h4 (fun q hq => ⟨(nodes1 hn q hq).1.le, (nodes1 hn q hq).2.le⟩) (fun q hq => (gauss_weights_pos one_pos (exact1 hn) posDef_cheb1 q hq).le) (mass1 hn)
  have e : |(b.val : ℝ) - a.val| * (ε / 4 * Real.pi) + |(b.val : ℝ) - a.val| * (3 * ε) * Real.pi = 3.25 * Real.pi * |(b.val : ℝ) - a.val| * ε := by ring
  rw [← e]
  rw [quad_pairs1] at h3
  rw [quad_pairs1, quad_pairs1] at h4
  exact ⟨⟨h1.1, abs_total₃ h1.2 h4 h3⟩, fun s hs => ⟨(h2 s hs).1, abs_total₃ (h2 s hs).2 h4 h3⟩⟩

/-- C115 for Gauss-Chebyshev of the second kind -/
theorem C115_chebyshev_second [L : Libm] (hL : AccurateTrig L) (hS : AccurateSin L) (mode : Overflow) {n : ℕ} (hn : 0 < n) (hmax : n ≤ 10 ^ 12) :
    ∃ r : Rule F64, GaussChebyshevSecondKind.new mode n = some r ∧
      ∀ (a b : F64) (f : F64 → F64) (g : ℝ → ℝ) (B M ε η : ℝ), a.isFinite = true → b.isFinite = true → |(a.val : ℝ)| ≤ B → |(b.val : ℝ)| ≤ B →
      B ≤ 2 ^ 400 → let D := |(b.val : ℝ) - a.val|; let ρ := 4 / 10 ^ 15 * B + 1 / 2 ^ 1000; let δ := D / (2 * n + 1); let κ := η + ε / 2 + ε / δ * ρ;
      let T := ∫ t in (a.val : ℝ)..b.val, g t * Real.sqrt (1 - ((2 * t - a.val - b.val) / (b.val - a.val)) ^ 2);
      let E := fun d : ℕ => D * (0.8 * κ + (6 / 10 ^ 15 + 9 / 10 ^ 17 * d) * (M + ε / 2 + κ)) + 1 / 2 ^ 500 + 1.625 * Real.pi * D * ε;
      a.val ≠ b.val → ContinuousOn g (Set.uIcc (a.val : ℝ) b.val) → ComputesContinuous f g (around a.val b.val ρ) M δ ε η → M + ε / 2 + κ ≤ 2 ^ 400 →
      (((AnyRule.chebyshevSecond r).value a b f).isFinite = true ∧ |(((AnyRule.chebyshevSecond r).value a b f).val : ℝ) - T| ≤ E n) ∧
      (∀ s, roundings s n ≤ 10 ^ 12 → ((AnyRule.chebyshevSecond r).parIntegrate s s a b f).isFinite = true ∧
        |(((AnyRule.chebyshevSecond r).parIntegrate s s a b f).val : ℝ) - T| ≤ E (roundings s n)) := by
  obtain ⟨r, hr, hC⟩ := C57_second_kind hL hS mode hn hmax
  refine ⟨r, hr, ?_⟩
  intro a b f g B M ε η ha hb haB hbB hB
  dsimp only
  intro hab hg hf hK
  have hab' : (a.val : ℝ) ≠ b.val := by exact_mod_cast hab
  have hB0 : 0 ≤ B := (abs_nonneg _).trans haB
  obtain ⟨hΛ, ho, φ, hφ, h4⟩ := continuous_setup (width_pos hab' n) (by positivity) hf
  have h := hC a b f φ B (M + ε / 2) (ε / (|(b.val : ℝ) - a.val| / (2 * n + 1))) (η + ε / 2) ha hb haB hbB hB
  dsimp only at h
  obtain ⟨h1, h2, -⟩ := h hφ hΛ hK
  have h3 := (interval_modulus (L := pairs2 n) (w := chebW2) hn (length_pairs2 n) one_pos (exact2 hn) posDef_cheb2
      (fun x _ => by unfold chebW2; positivity) integrableOn_cheb2 hab' hg ho).2
  have hm := gauss_mass (exact2 hn)
  rw [integral_chebW2, one_mul] at hm
  rw [integral_chebW2, one_mul, one_mul] at h3
  have h4 := quad_lipschitz h4 (fun q hq => ⟨(nodes2 hn q hq).1.le, (nodes2 hn q hq).2.le⟩) (fun q hq => (gauss_weights_pos one_pos (exact2 hn) posDef_cheb2 q hq).le) hm
  have e : |(b.val : ℝ) - a.val| * (ε / 4 * (Real.pi / 2)) + |(b.val : ℝ) - a.val| * (3 * ε) * (Real.pi / 2) = 1.625 * Real.pi * |(b.val : ℝ) - a.val| * ε := by ring
  rw [← e]
  rw [quad_pairs2] at h3
  rw [quad_pairs2, quad_pairs2] at h4
  exact ⟨⟨h1.1, abs_total₃ h1.2 h4 h3⟩, fun s hs => ⟨(h2 s hs).1, abs_total₃ (h2 s hs).2 h4 h3⟩⟩

/-- C115 for Gauss-Jacobi; `ε` is the constant of the eigen-solver and `ω` the oscillation of the integrand -/
theorem C115_jacobi [L : Libm] (hL : AccurateTrig L) (hP : AccuratePow L) (hs : AccurateSqrt L) (mode : Overflow) {ext : Externals F64} {n : ℕ} (hn : 0 < n)
    (hn1 : n ≤ 10 ^ 12) {ε : ℝ} (hst : StableSolver ext n ε) (hε : 0 ≤ ε) (hε1 : ε ≤ 0.01) {al be : FiniteAboveNegOne F64} {x y : F64}
    (hal : FiniteAboveNegOne.new x = some al) (hbe : FiniteAboveNegOne.new y = some be)
    (hR : (x.val : ℝ) + y.val ≤ 164 ∧ (2 : ℝ) ^ ((x.val : ℝ) + y.val + 1) * Real.Gamma (x.val + 1) * Real.Gamma (y.val + 1) ≤ 2 ^ 1000)
    {μ : ℝ} (hμ0 : 1 / 1000 ≤ μ) (hμ1 : μ ≤ 1) (hμ : μ ≤ |(x.val : ℝ) + y.val + 1|) (hμ2 : μ ≤ (x.val : ℝ) + y.val + 2)
    (hSN : (x.val : ℝ) + y.val < -1 → AccurateSinNeg L)
    (hd : ¬ (x.val = 0 ∧ y.val = 0) ∧ ¬ (x.val = -1 / 2 ∧ y.val = -1 / 2) ∧ ¬ (x.val = 1 / 2 ∧ y.val = 1 / 2))
    (hodd : n % 2 = 0 ∨ n = 1 ∨ x.val = y.val) :
    ∃ r : JacobiRule F64, GaussJacobi.new mode ext n al be = some r ∧
      ∀ (a b : F64) (B : ℝ) (f : F64 → F64) (g : ℝ → ℝ) (lo hi M ω κ : ℝ), let η := 3.6 * Real.sqrt n * (ε + 21 * (1 / 2 ^ 53) / μ); let m := jacobiMass x.val y.val;
      let D := |(b.val : ℝ) - a.val|; let τ := 6 * (1 / 2 ^ 53 * B) + 1 / 2 ^ 1000; let Λ := ω / (D / (2 * n + 1)); let κ' := κ + ω / 2 + Λ * τ;
      let E := fun d : ℕ => D * (m * (0.26 * (Λ * D * η) + 0.501 * ((2.01 * ε + 4.2e-11) * (M + ω / 2)) + 0.53 * κ' + (0.56 * d + 2.2) * (1 / 2 ^ 53 * (M + ω / 2 + κ')))) + 1 / 2 ^ 490 +
        3.25 * m * D * ω;
      let T := ∫ t in (a.val : ℝ)..b.val, g t * ((1 - (2 * t - a.val - b.val) / (b.val - a.val)) ^ (x.val : ℝ) * (1 + (2 * t - a.val - b.val) / (b.val - a.val)) ^ (y.val : ℝ));
      a.isFinite = true → b.isFinite = true → a.val ≠ b.val → |(a.val : ℝ)| ≤ B → |(b.val : ℝ)| ≤ B → B ≤ 2 ^ 400 → η ≤ 0.001 →
      lo + D / 2 * η + τ ≤ min (a.val : ℝ) b.val → max (a.val : ℝ) b.val + D / 2 * η + τ ≤ hi → ContinuousOn g (Set.uIcc (a.val : ℝ) b.val) →
      ComputesContinuous f g (Set.Icc lo hi) M (D / (2 * n + 1)) ω κ → m * (M + ω / 2 + κ' + Λ * D) ≤ 2 ^ 500 →
      (((AnyRule.jacobi r).value a b f).isFinite = true ∧ |(((AnyRule.jacobi r).value a b f).val : ℝ) - T| ≤ E n) ∧
      (∀ s, roundings s n ≤ 10 ^ 12 → ((AnyRule.jacobi r).parIntegrate s s a b f).isFinite = true ∧
        |(((AnyRule.jacobi r).parIntegrate s s a b f).val : ℝ) - T| ≤ E (roundings s n)) := by
  have gt : ∀ {z : F64} {ga : FiniteAboveNegOne F64}, FiniteAboveNegOne.new z = some ga → -1 < (z.val : ℝ) := fun {z ga} h => by
    have hv := (valid_of_new h).2
    rw [eq_of_new h] at hv
    have : ((-1 : ℚ) : ℝ) < (z.val : ℝ) := by exact_mod_cast hv
    push_cast at this
    exact this
  have hα := gt hal
  have hβ := gt hbe
  have hsum : (x.val : ℝ) + y.val ≠ -1 := by
    intro h
    rw [h] at hμ
    norm_num at hμ
    linarith
  obtain ⟨G, hlen, hsort, hex⟩ := jacobi_rule_exists hn hα hβ hsum
  have hex' : ExactUpTo G (2 * G.length - 1) (Set.Ioo (-1) 1) (fun t => (1 - t) ^ (x.val : ℝ) * (1 + t) ^ (y.val : ℝ)) 1 := by rw [hlen]; exact hex
  obtain ⟨r, hr, hC⟩ := C65_jacobi hL hP hs mode hn hn1 hst hε hε1 hal hbe hR hμ0 hμ1 hμ hμ2 hSN hd hodd hlen hsort hex
  refine ⟨r, hr, ?_⟩
  intro a b B f g lo hi M ω κ
  dsimp only
  intro ha hb hab haB hbB hB hη hlo hhi hg hf hK
  have hab' : (a.val : ℝ) ≠ b.val := by exact_mod_cast hab
  have hδ := width_pos hab' n
  have hB0 : 0 ≤ B := (abs_nonneg _).trans haB
  have hμp : 0 < μ := by linarith
  have hη0 : 0 ≤ |(b.val : ℝ) - a.val| / 2 * (3.6 * Real.sqrt n * (ε + 21 * (1 / 2 ^ 53) / μ)) := by positivity
  have hτ : 0 ≤ 6 * (1 / 2 ^ 53 * B) + 1 / 2 ^ 1000 := by positivity
  have hlo' : lo ≤ min (a.val : ℝ) b.val := by linarith
  have hhi' : max (a.val : ℝ) b.val ≤ hi := by linarith
  obtain ⟨φ, hφ, hclose⟩ := lipschitz_computes (hlo'.trans (min_le_max.trans hhi')) hδ hf
  have ho : OscillationBetween g a.val b.val (|(b.val : ℝ) - a.val| / (2 * n + 1)) ω := fun u hu v hv h =>
    hf.oscillation u ⟨hlo'.trans hu.1, hu.2.trans hhi'⟩ v ⟨hlo'.trans hv.1, hv.2.trans hhi'⟩ h
  have hω : 0 ≤ ω := (abs_nonneg _).trans (ho _ Set.left_mem_uIcc _ Set.left_mem_uIcc (by rw [_root_.sub_self, abs_zero]; exact hδ.le))
  have h := hC a b B f φ lo hi (M + ω / 2) (ω / (|(b.val : ℝ) - a.val| / (2 * n + 1))) (κ + ω / 2)
  dsimp only at h
  obtain ⟨h1, h2, -⟩ := h ha hb haB hbB hB hη hlo hhi hφ (div_nonneg hω hδ.le) hK
  have h3 := (interval_modulus hn hlen one_pos hex' (posDef_jacobi hα hβ)
    (fun x hx => mul_nonneg (Real.rpow_nonneg (by linarith [hx.2]) _) (Real.rpow_nonneg (by linarith [hx.1]) _)) (integrable_jacobi hα hβ) hab' hg ho).2
  have hm := gauss_mass hex'
  rw [one_mul] at hm
  have h4 := quad_lipschitz (a := a.val) (b := b.val) (G := G) (fun t ht => hclose t ⟨hlo'.trans ht.1, ht.2.trans hhi'⟩)
    (fun q hq => ⟨(gauss_nodes_gt one_pos hex' (posDef_jacobi hα hβ) (fun x hx => hx.1.le) q hq).le, (gauss_nodes_lt one_pos hex' (posDef_jacobi hα hβ) (fun x hx => hx.2.le) q hq).le⟩)
    (fun q hq => (gauss_weights_pos one_pos hex' (posDef_jacobi hα hβ) q hq).le) hm
  rw [one_mul, one_mul] at h3
  rw [← jacobiMass_eq hα hβ] at h3 h4
  have e : |(b.val : ℝ) - a.val| * (ω / 4 * jacobiMass x.val y.val) + |(b.val : ℝ) - a.val| * (3 * ω) * jacobiMass x.val y.val =
      3.25 * jacobiMass x.val y.val * |(b.val : ℝ) - a.val| * ω := by ring
  rw [← e]
  exact ⟨⟨h1.1, abs_total₃ h1.2 h4 h3⟩, fun s hs => ⟨(h2 s hs).1, abs_total₃ (h2 s hs).2 h4 h3⟩⟩

/-! ### equidistant rules -/

theorem mem_uIcc_step (a b : ℝ) {n : ℕ} (hn : 0 < n) {θ : ℝ} (h0 : 0 ≤ θ) (h1 : θ ≤ n) : a + θ * ((b - a) / n) ∈ Set.uIcc a b := by
  have hn' : (0 : ℝ) < n := by exact_mod_cast hn
  have h2 : θ / n ≤ 1 := by rwa [div_le_one hn']
  have h3 : 0 ≤ θ / n := by positivity
  have := mem_uIcc_of_Icc (a := a) (b := b) (x := 2 * (θ / n) - 1) ⟨by linarith, by linarith⟩
  rwa [show (b - a) / 2 * (2 * (θ / n) - 1) + (a + b) / 2 = a + θ * ((b - a) / n) by field_simp; ring] at this

theorem abs_mean_le {a b c : ℝ} {n : ℕ} (hn : 0 < n) {u : ℕ → ℝ} (hu : ∀ i < n, |u i| ≤ c) : |(b - a) / n * ∑ i ∈ Finset.range n, u i| ≤ |b - a| * c := by
  have hn' : (0 : ℝ) < n := by exact_mod_cast hn
  have h1 : |∑ i ∈ Finset.range n, u i| ≤ n * c := by
    refine (Finset.abs_sum_le_sum_abs _ _).trans ((Finset.sum_le_sum fun i hi => hu i (Finset.mem_range.1 hi)).trans (le_of_eq ?_))
    rw [Finset.sum_const, Finset.card_range, nsmul_eq_mul]
  rw [abs_mul, abs_div, abs_of_pos hn']
  calc |b - a| / n * |∑ i ∈ Finset.range n, u i| ≤ |b - a| / n * (n * c) := mul_le_mul_of_nonneg_left h1 (by positivity)
    _ = _ := by field_simp

theorem equidistant_total {v I J T D κ X c d ε z : ℝ} (h1 : |v - I| ≤ D * (1.01 * κ + (c + 1.2 / 10 ^ 16 * d) * X) + z) (hc : c ≤ 1.2 / 10 ^ 15) (hX : 0 ≤ X) (hD : 0 ≤ D)
    (h2 : |I - J| ≤ D * (ε / 2)) (h3 : |T - J| ≤ ε * D) : |v - T| ≤ D * (1.01 * κ + (1.2 / 10 ^ 15 + 1.2 / 10 ^ 16 * d) * X) + z + 1.5 * D * ε := by
  have h4 : D * (1.01 * κ + (c + 1.2 / 10 ^ 16 * d) * X) ≤ D * (1.01 * κ + (1.2 / 10 ^ 15 + 1.2 / 10 ^ 16 * d) * X) :=
    mul_le_mul_of_nonneg_left (by have := mul_le_mul_of_nonneg_right hc hX; linarith) hD
  rw [abs_sub_comm] at h3
  refine (abs_total₃ h1 h2 h3).trans ?_
  linarith

/-- C115 for the midpoint, trapezoid and Simpson rules -/
theorem C115_newton_cotes [L : Libm] (r : NodeRule) (a b : F64) (f : F64 → F64) (g : ℝ → ℝ) (B M ε η : ℝ) (ha : a.isFinite = true) (hb : b.isFinite = true)
    (haB : |(a.val : ℝ)| ≤ B) (hbB : |(b.val : ℝ)| ≤ B) (hB : B ≤ 2 ^ 400) :
    let D := |(b.val : ℝ) - a.val|; let ρ := 4 / 10 ^ 15 * B + 1 / 2 ^ 1000; let δ := D / r.degree; let κ := η + ε / 2 + ε / δ * ρ; let T := ∫ t in (a.val : ℝ)..b.val, g t
    let E := fun d : ℕ => D * (1.01 * κ + (1.2 / 10 ^ 15 + 1.2 / 10 ^ 16 * d) * (M + ε / 2 + κ)) + 1 / 2 ^ 500 + 1.5 * D * ε
    a.val ≠ b.val → ContinuousOn g (Set.uIcc (a.val : ℝ) b.val) → ComputesContinuous f g (around a.val b.val ρ) M δ ε η → M + ε / 2 + κ ≤ 2 ^ 400 →
    (((AnyRule.midpoint r).value a b f).isFinite = true ∧ |(((AnyRule.midpoint r).value a b f).val : ℝ) - T| ≤ E r.degree ∧
      ∀ s s', roundings s r.degree ≤ 10 ^ 12 → ((AnyRule.midpoint r).parIntegrate s s' a b f).isFinite = true ∧
        |(((AnyRule.midpoint r).parIntegrate s s' a b f).val : ℝ) - T| ≤ E (roundings s r.degree)) ∧
    (((AnyRule.trapezoid r).value a b f).isFinite = true ∧ |(((AnyRule.trapezoid r).value a b f).val : ℝ) - T| ≤ E (r.degree - 1) ∧
      ∀ s s', roundings s (r.degree - 1) ≤ 10 ^ 12 → ((AnyRule.trapezoid r).parIntegrate s s' a b f).isFinite = true ∧
        |(((AnyRule.trapezoid r).parIntegrate s s' a b f).val : ℝ) - T| ≤ E (roundings s (r.degree - 1))) ∧
    (((AnyRule.simpson r).value a b f).isFinite = true ∧ |(((AnyRule.simpson r).value a b f).val : ℝ) - T| ≤ E (r.degree - 1) ∧
      ∀ s s', roundings s (r.degree - 1) ≤ 10 ^ 12 → roundings s' (r.degree - 1) ≤ 10 ^ 12 → ((AnyRule.simpson r).parIntegrate s s' a b f).isFinite = true ∧
        |(((AnyRule.simpson r).parIntegrate s s' a b f).val : ℝ) - T| ≤ E (max (roundings s (r.degree - 1)) (roundings s' (r.degree - 1)))) := by
  dsimp only
  intro hab hg hf hK
  have hab' : (a.val : ℝ) ≠ b.val := by exact_mod_cast hab
  have hn := r.pos
  have hn' : (0 : ℝ) < r.degree := by exact_mod_cast hn
  have hD : 0 < |(b.val : ℝ) - a.val| := abs_pos.2 (sub_ne_zero.2 hab'.symm)
  have hB0 : 0 ≤ B := (abs_nonneg _).trans haB
  have hδ : 0 < |(b.val : ℝ) - a.val| / r.degree := by positivity
  obtain ⟨hΛ, ho, φ, hφ, hcl⟩ := continuous_setup hδ (by positivity) hf
  obtain ⟨M1, M2, -⟩ := C58_midpoint r a b f φ B (M + ε / 2) (ε / (|(b.val : ℝ) - a.val| / r.degree)) (η + ε / 2) ha hb haB hbB hB hφ hΛ hK
  obtain ⟨T1, T2, -⟩ := C58_trapezoid r a b f φ B (M + ε / 2) (ε / (|(b.val : ℝ) - a.val| / r.degree)) (η + ε / 2) ha hb haB hbB hB hφ hΛ hK
  obtain ⟨S1, S2, -⟩ := C58_simpson r a b f φ B (M + ε / 2) (ε / (|(b.val : ℝ) - a.val| / r.degree)) (η + ε / 2) ha hb haB hbB hB hφ hΛ hK
  obtain ⟨km, kt, ks⟩ := C29_modulus hg r ho
  have hX : 0 ≤ M + ε / 2 + (η + ε / 2 + ε / (|(b.val : ℝ) - a.val| / r.degree) * (4 / 10 ^ 15 * B + 1 / 2 ^ 1000)) := by
    have hmem : (a.val : ℝ) ∈ around a.val b.val (4 / 10 ^ 15 * B + 1 / 2 ^ 1000) :=
      ⟨by have : 0 ≤ 4 / 10 ^ 15 * B + 1 / 2 ^ 1000 := by positivity
          linarith [min_le_left (a.val : ℝ) b.val], by have : 0 ≤ 4 / 10 ^ 15 * B + 1 / 2 ^ 1000 := by positivity
                                                       linarith [le_max_left (a.val : ℝ) b.val]⟩
    have q1 : 0 ≤ M + ε / 2 := (abs_nonneg _).trans (hφ.bound _ hmem)
    have q2 : 0 ≤ η + ε / 2 := (abs_nonneg _).trans (hφ.accurate a ha hmem).2
    positivity
  have half : ∀ i : ℕ, i < r.degree → (0 : ℝ) ≤ i + 1 / 2 ∧ (i : ℝ) + 1 / 2 ≤ r.degree ∧ (i : ℝ) + 1 ≤ r.degree := fun i hi => by
    have : (i : ℝ) + 1 ≤ r.degree := by exact_mod_cast hi
    exact ⟨by positivity, by linarith, this⟩
  have pm : ∀ i : ℕ, i < r.degree → |φ (a.val + (i + 1 / 2) * (((b.val : ℝ) - a.val) / r.degree)) - g (a.val + (i + 1 / 2) * (((b.val : ℝ) - a.val) / r.degree))| ≤ ε / 2 := fun i hi =>
    hcl _ (mem_uIcc_step _ _ hn (half i hi).1 (half i hi).2.1)
  have p0 : ∀ i : ℕ, i < r.degree → |φ (a.val + i * (((b.val : ℝ) - a.val) / r.degree)) - g (a.val + i * (((b.val : ℝ) - a.val) / r.degree))| ≤ ε / 2 := fun i hi =>
    hcl _ (mem_uIcc_step _ _ hn (by positivity) (by linarith [(half i hi).2.2]))
  have p1 : ∀ i : ℕ, i < r.degree → |φ (a.val + (i + 1) * (((b.val : ℝ) - a.val) / r.degree)) - g (a.val + (i + 1) * (((b.val : ℝ) - a.val) / r.degree))| ≤ ε / 2 := fun i hi =>
    hcl _ (mem_uIcc_step _ _ hn (by positivity) (half i hi).2.2)
  rw [value_midpoint] at km
  rw [value_trapezoid] at kt
  rw [value_simpson_sum, ← Finset.mul_sum] at ks
  have dm : |((b.val : ℝ) - a.val) / r.degree * ∑ i ∈ Finset.range r.degree, φ (a.val + (i + 1 / 2) * (((b.val : ℝ) - a.val) / r.degree)) -
      ((b.val : ℝ) - a.val) / r.degree * ∑ i ∈ Finset.range r.degree, g (a.val + (i + 1 / 2) * (((b.val : ℝ) - a.val) / r.degree))| ≤ |(b.val : ℝ) - a.val| * (ε / 2) := by
    rw [← mul_sub, ← Finset.sum_sub_distrib]
    exact abs_mean_le hn pm
  have dt : |((b.val : ℝ) - a.val) / r.degree * ∑ i ∈ Finset.range r.degree, (φ (a.val + i * (((b.val : ℝ) - a.val) / r.degree)) + φ (a.val + (i + 1) * (((b.val : ℝ) - a.val) / r.degree))) / 2 -
      ((b.val : ℝ) - a.val) / r.degree * ∑ i ∈ Finset.range r.degree, (g (a.val + i * (((b.val : ℝ) - a.val) / r.degree)) + g (a.val + (i + 1) * (((b.val : ℝ) - a.val) / r.degree))) / 2| ≤
      |(b.val : ℝ) - a.val| * (ε / 2) := by
    rw [← mul_sub, ← Finset.sum_sub_distrib]
    refine abs_mean_le hn fun i hi => ?_
    have h1 := _root_.abs_le.1 (p0 i hi)
    have h2 := _root_.abs_le.1 (p1 i hi)
    rw [_root_.abs_le]
    constructor <;> linarith [h1.1, h1.2, h2.1, h2.2]
  have ds : |((b.val : ℝ) - a.val) / r.degree / 6 * ∑ i ∈ Finset.range r.degree, (φ (a.val + i * (((b.val : ℝ) - a.val) / r.degree)) + 4 * φ (a.val + (i + 1 / 2) * (((b.val : ℝ) - a.val) / r.degree)) +
        φ (a.val + (i + 1) * (((b.val : ℝ) - a.val) / r.degree))) -
      ((b.val : ℝ) - a.val) / r.degree / 2 / 3 * ∑ i ∈ Finset.range r.degree, (g (a.val + (i + 1) * (((b.val : ℝ) - a.val) / r.degree)) + 4 * g (a.val + (i + 1 / 2) * (((b.val : ℝ) - a.val) / r.degree)) +
        g (a.val + i * (((b.val : ℝ) - a.val) / r.degree)))| ≤ |(b.val : ℝ) - a.val| * (ε / 2) := by
    have e : ∀ S S' : ℝ, ((b.val : ℝ) - a.val) / r.degree / 6 * S - ((b.val : ℝ) - a.val) / r.degree / 2 / 3 * S' = ((b.val : ℝ) - a.val) / r.degree * ((S - S') / 6) := fun S S' => by ring
    rw [e, ← Finset.sum_sub_distrib, Finset.sum_div]
    refine abs_mean_le hn fun i hi => ?_
    have h1 := _root_.abs_le.1 (p0 i hi)
    have h2 := _root_.abs_le.1 (p1 i hi)
    have h3 := _root_.abs_le.1 (pm i hi)
    rw [_root_.abs_le]
    constructor <;> linarith [h1.1, h1.2, h2.1, h2.2, h3.1, h3.2]
  exact ⟨⟨M1.1, equidistant_total M1.2 (by norm_num) hX hD.le dm km, fun s s' hs => ⟨(M2 s s' hs).1, equidistant_total (M2 s s' hs).2 (by norm_num) hX hD.le dm km⟩⟩,
    ⟨T1.1, equidistant_total T1.2 (by norm_num) hX hD.le dt kt, fun s s' hs => ⟨(T2 s s' hs).1, equidistant_total (T2 s s' hs).2 (by norm_num) hX hD.le dt kt⟩⟩,
    ⟨S1.1, equidistant_total S1.2 le_rfl hX hD.le ds ks, fun s s' hs hs' => ⟨(S2 s s' hs hs').1, equidistant_total (S2 s s' hs hs').2 le_rfl hX hD.le ds ks⟩⟩⟩

/-! ### Instances: `√|cos t|` on [1, 2], whose derivative is unbounded near `π/2` -/

theorem sqrt_cos_oscillation {x y δ : ℝ} (h : |x - y| ≤ δ) : |Real.sqrt (|Real.cos x|) - Real.sqrt (|Real.cos y|)| ≤ Real.sqrt δ := by
  have key : ∀ u v : ℝ, Real.sqrt |u| ≤ Real.sqrt |v| + Real.sqrt |u - v| := fun u v => by
    have h1 : |u| ≤ |v| + |u - v| := by
      have := abs_sub_abs_le_abs_sub u v
      linarith
    refine Real.sqrt_le_iff.2 ⟨by positivity, ?_⟩
    have h2 := Real.sq_sqrt (abs_nonneg v)
    have h3 := Real.sq_sqrt (abs_nonneg (u - v))
    have h4 : 0 ≤ Real.sqrt |v| * Real.sqrt |u - v| := by positivity
    nlinarith
  have h1 := key (Real.cos x) (Real.cos y)
  have h2 := key (Real.cos y) (Real.cos x)
  rw [abs_sub_comm (Real.cos y)] at h2
  have h3 := Real.sqrt_le_sqrt ((Real.abs_cos_sub_cos_le x y).trans h)
  rw [_root_.abs_le]
  constructor <;> linarith

theorem sqrt_cos_le (t : ℝ) : |Real.sqrt (|Real.cos t|)| ≤ 1 := by
  rw [abs_of_nonneg (Real.sqrt_nonneg _)]
  exact Real.sqrt_le_one.2 (Real.abs_cos_le_one t)

/-- a correctly rounded implementation of `√|cos t|` meets the hypotheses -/
theorem sqrt_cos_computes : ∃ f : F64 → F64, ∀ (I : Set ℝ) (δ ε : ℝ), Real.sqrt δ ≤ ε → ComputesContinuous f (fun t => Real.sqrt |Real.cos t|) I 1 δ ε (1 / 2 ^ 52) :=
  ⟨fun y => (exists_cos (Real.sqrt |Real.cos y.val|) (sqrt_cos_le _)).choose, fun _ _ _ h => ⟨fun t _ => sqrt_cos_le t,
    fun _ _ _ _ hst => (sqrt_cos_oscillation hst).trans h, fun y _ _ => (exists_cos (Real.sqrt |Real.cos y.val|) (sqrt_cos_le _)).choose_spec⟩⟩

/-- `C115_legendre`, `C115_chebyshev_first`, `C115_chebyshev_second` -/
example : ∃ _L : Libm, ∃ (f : F64 → F64) (a b : F64) (r r' r'' : Rule F64), a.val = 1 ∧ b.val = 2 ∧ GaussLegendre.new .checked 10000 = some r ∧
    GaussChebyshevFirstKind.new .checked 10000 = some r' ∧ GaussChebyshevSecondKind.new .checked 10000 = some r'' ∧
    |(((AnyRule.legendre r).value a b f).val : ℝ) - ∫ t in (1 : ℝ)..2, Real.sqrt (|Real.cos t|)| ≤ 0.05 ∧
    |(((AnyRule.chebyshevFirst r').value a b f).val : ℝ) - ∫ t in (1 : ℝ)..2, Real.sqrt (|Real.cos t|) * (1 / Real.sqrt (1 - ((2 * t - 1 - 2) / (2 - 1)) ^ 2))| ≤ 0.08 ∧
    |(((AnyRule.chebyshevSecond r'').value a b f).val : ℝ) - ∫ t in (1 : ℝ)..2, Real.sqrt (|Real.cos t|) * Real.sqrt (1 - ((2 * t - 1 - 2) / (2 - 1)) ^ 2)| ≤ 0.04 := by
  obtain ⟨L, hL, hS⟩ := accurateTrigSin_exists
  obtain ⟨f, hf⟩ := sqrt_cos_computes
  have d1 : (round 1 false).isFinite = true ∧ (round 1 false).val = 1 := by decide +kernel
  have d2 : (round 2 false).isFinite = true ∧ (round 2 false).val = 2 := by decide +kernel
  have e1 : (((round 1 false).val : ℚ) : ℝ) = 1 := by rw [d1.2]; norm_num
  have e2 : (((round 2 false).val : ℚ) : ℝ) = 2 := by rw [d2.2]; norm_num
  have hne : (round 1 false).val ≠ (round 2 false).val := by rw [d1.2, d2.2]; norm_num
  obtain ⟨r, hr, h⟩ := C115_legendre hL .checked (n := 10000) (by norm_num) (by norm_num)
  obtain ⟨r', hr', h'⟩ := C115_chebyshev_first hL .checked (n := 10000) (by norm_num) (by norm_num)
  obtain ⟨r'', hr'', h''⟩ := C115_chebyshev_second hL hS .checked (n := 10000) (by norm_num) (by norm_num)
  refine ⟨L, f, _, _, r, r', r'', d1.2, d2.2, hr, hr', hr'', ?_⟩
  have h := h (round 1 false) (round 2 false) f (fun t => Real.sqrt |Real.cos t|) 2 1 0.0071 (1 / 2 ^ 52) d1.1 d2.1 (by rw [e1]; norm_num) (by rw [e2]; norm_num) (by norm_num)
  have h' := h' (round 1 false) (round 2 false) f (fun t => Real.sqrt |Real.cos t|) 2 1 0.0071 (1 / 2 ^ 52) d1.1 d2.1 (by rw [e1]; norm_num) (by rw [e2]; norm_num) (by norm_num)
  have h'' := h'' (round 1 false) (round 2 false) f (fun t => Real.sqrt |Real.cos t|) 2 1 0.0071 (1 / 2 ^ 52) d1.1 d2.1 (by rw [e1]; norm_num) (by rw [e2]; norm_num) (by norm_num)
  have eD : |(2 : ℝ) - 1| = 1 := by rw [abs_of_pos (by norm_num)]; norm_num
  rw [e1, e2] at h h' h''
  simp only [eD] at h h' h''
  have hc : ContinuousOn (fun t => Real.sqrt |Real.cos t|) (Set.uIcc 1 2) := by fun_prop
  have hδ : Real.sqrt (1 / (2 * ((10000 : ℕ) : ℝ) + 1)) ≤ 0.0071 := Real.sqrt_le_iff.2 ⟨by norm_num, by norm_num⟩
  have hp := Real.pi_lt_d2
  refine ⟨((h hne hc (hf _ _ _ hδ) (by norm_num)).1.2).trans ?_, ((h' hne hc (hf _ _ _ hδ) (by norm_num)).1.2).trans ?_, ((h'' hne hc (hf _ _ _ hδ) (by norm_num)).1.2).trans ?_⟩
  · norm_num
  · norm_num; linarith
  · norm_num; linarith

/-- `C115_newton_cotes` -/
example (L : Libm) : ∃ (f : F64 → F64) (a b : F64) (r : NodeRule), a.val = 1 ∧ b.val = 2 ∧ r.degree = 10000 ∧
    |(((AnyRule.midpoint r).value a b f).val : ℝ) - ∫ t in (1 : ℝ)..2, Real.sqrt (|Real.cos t|)| ≤ 0.021 ∧
    |(((AnyRule.trapezoid r).value a b f).val : ℝ) - ∫ t in (1 : ℝ)..2, Real.sqrt (|Real.cos t|)| ≤ 0.021 ∧
    |(((AnyRule.simpson r).value a b f).val : ℝ) - ∫ t in (1 : ℝ)..2, Real.sqrt (|Real.cos t|)| ≤ 0.021 := by
  obtain ⟨f, hf⟩ := sqrt_cos_computes
  have d1 : (round 1 false).isFinite = true ∧ (round 1 false).val = 1 := by decide +kernel
  have d2 : (round 2 false).isFinite = true ∧ (round 2 false).val = 2 := by decide +kernel
  have e1 : (((round 1 false).val : ℚ) : ℝ) = 1 := by rw [d1.2]; norm_num
  have e2 : (((round 2 false).val : ℚ) : ℝ) = 2 := by rw [d2.2]; norm_num
  have hne : (round 1 false).val ≠ (round 2 false).val := by rw [d1.2, d2.2]; norm_num
  refine ⟨f, _, _, ⟨10000, by norm_num, by norm_num⟩, d1.2, d2.2, rfl, ?_⟩
  have h := C115_newton_cotes ⟨10000, by norm_num, by norm_num⟩ (round 1 false) (round 2 false) f (fun t => Real.sqrt |Real.cos t|) 2 1 0.01 (1 / 2 ^ 52) d1.1 d2.1
    (by rw [e1]; norm_num) (by rw [e2]; norm_num) (by norm_num)
  have eD : |(2 : ℝ) - 1| = 1 := by rw [abs_of_pos (by norm_num)]; norm_num
  rw [e1, e2] at h
  simp only [eD] at h
  have hc : ContinuousOn (fun t => Real.sqrt |Real.cos t|) (Set.uIcc 1 2) := by fun_prop
  have hδ : Real.sqrt (1 / ((10000 : ℕ) : ℝ)) ≤ 0.01 := Real.sqrt_le_iff.2 ⟨by norm_num, by norm_num⟩
  obtain ⟨⟨-, h1, -⟩, ⟨-, h2, -⟩, -, h3, -⟩ := h hne hc (hf _ _ _ hδ) (by norm_num)
  exact ⟨h1.trans (by norm_num), h2.trans (by norm_num), h3.trans (by norm_num)⟩

/-- `C115_jacobi` with `α = β = 1` -/
example : ∃ _L : Libm, ∃ (ext : Externals F64) (f : F64 → F64) (x a b : F64) (al : FiniteAboveNegOne F64) (r : JacobiRule F64), x.val = 1 ∧ a.val = 1 ∧ b.val = 2 ∧
    FiniteAboveNegOne.new x = some al ∧ GaussJacobi.new .checked ext 10000 al al = some r ∧
    |(((AnyRule.jacobi r).value a b f).val : ℝ) - ∫ t in (1 : ℝ)..2, Real.sqrt (|Real.cos t|) * ((1 - (2 * t - 1 - 2) / (2 - 1)) ^ (1 : ℝ) * (1 + (2 * t - 1 - 2) / (2 - 1)) ^ (1 : ℝ))| ≤ 0.04 := by
  obtain ⟨L, hL, -, hP, hs⟩ := accurateLibm_exists
  obtain ⟨f, hf⟩ := sqrt_cos_computes
  have d1 : (round 1 false).isFinite = true ∧ (round 1 false).val = 1 := by decide +kernel
  have d2 : (round 2 false).isFinite = true ∧ (round 2 false).val = 2 := by decide +kernel
  have e1 : (((round 1 false).val : ℚ) : ℝ) = 1 := by rw [d1.2]; norm_num
  have e2 : (((round 2 false).val : ℚ) : ℝ) = 2 := by rw [d2.2]; norm_num
  have hne : (round 1 false).val ≠ (round 2 false).val := by rw [d1.2, d2.2]; norm_num
  have hnew1 : FiniteAboveNegOne.new (round 1 false) = some ⟨round 1 false⟩ := new_valid ⟨d1.1, by rw [d1.2]; norm_num⟩
  have hst := stableSolver_exists (n := 10000) (by norm_num)
  have hε0 : 0 ≤ 3 * ((10000 : ℕ) : ℝ) * U := by unfold U; positivity
  have hε1 : 3 * ((10000 : ℕ) : ℝ) * U ≤ 0.01 := by unfold U; norm_num
  have hm : jacobiMass 1 1 = 4 / 3 := by
    have h1 : Real.Gamma (1 + 1 + 2) = 6 := by
      have := Real.Gamma_nat_eq_factorial 3
      norm_num [Nat.factorial] at this ⊢
    have h2 : Real.Gamma (1 + 1) = 1 := by norm_num [Real.Gamma_two]
    have h3 : (2 : ℝ) ^ (1 + 1 + 1 : ℝ) = 8 := by norm_num
    unfold jacobiMass
    rw [h1, h2, h3]; norm_num
  have nd : ¬ ((round 1 false).val = 0 ∧ (round 1 false).val = 0) ∧ ¬ ((round 1 false).val = -1 / 2 ∧ (round 1 false).val = -1 / 2) ∧
      ¬ ((round 1 false).val = 1 / 2 ∧ (round 1 false).val = 1 / 2) := by rw [d1.2]; norm_num
  obtain ⟨r, hr, hv⟩ := C115_jacobi hL hP hs .checked (n := 10000) (by norm_num) (by norm_num) hst hε0 hε1 hnew1 hnew1 (C64_range hnew1 hnew1 (by rw [e1]; norm_num)
    (by rw [e1]; norm_num)) (μ := 1) (by norm_num) le_rfl (by rw [e1]; norm_num) (by rw [e1]; norm_num)
    (fun h => absurd h (by rw [e1]; norm_num)) nd (Or.inl (by norm_num))
  refine ⟨L, _, f, _, _, _, _, r, d1.2, d1.2, d2.2, hnew1, hr, ?_⟩
  have h := hv (round 1 false) (round 2 false) 2 f (fun t => Real.sqrt |Real.cos t|) 0 3 1 0.0071 (1 / 2 ^ 52)
  have eD : |(2 : ℝ) - 1| = 1 := by rw [abs_of_pos (by norm_num)]; norm_num
  have hsq : Real.sqrt ((10000 : ℕ) : ℝ) = 100 := by rw [show ((10000 : ℕ) : ℝ) = 100 ^ 2 by norm_num]; exact Real.sqrt_sq (by norm_num)
  rw [e1, e2] at h
  simp only [eD, hsq, hm] at h
  have hc : ContinuousOn (fun t => Real.sqrt |Real.cos t|) (Set.uIcc 1 2) := by fun_prop
  have hδ : Real.sqrt (1 / (2 * ((10000 : ℕ) : ℝ) + 1)) ≤ 0.0071 := Real.sqrt_le_iff.2 ⟨by norm_num, by norm_num⟩
  refine (h d1.1 d2.1 hne (by norm_num) (by norm_num) (by norm_num) (by unfold U; norm_num) (by unfold U; norm_num) (by unfold U; norm_num) hc (hf _ _ _ hδ) (by norm_num)).1.2.trans ?_
  unfold U
  norm_num

end GaussQuad.Props
