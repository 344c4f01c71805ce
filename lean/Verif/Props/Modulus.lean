import Verif.Proofs.JacksonModulus
import Verif.Props.TotalError
import Verif.Props.Legendre

/-!
# C113: every continuous integrand, by its modulus of continuity

The Gauss rules on finite intervals (`/repo/src/legendre/mod.rs:60-131`, `/repo/src/chebyshev/mod.rs:24-105, 150-217`, `/repo/src/jacobi/mod.rs:75-199`).
-/

namespace GaussQuad.Props
open Polynomial Spec FloatOps MeasureTheory Bernstein Jackson

theorem interval_modulus {L : List (ℝ × ℝ)} {w : ℝ → ℝ} {c a b ε : ℝ} {g : ℝ → ℝ} {n : ℕ} (hn : 0 < n) (hL : L.length = n) (hc : 0 < c)
    (hex : ExactUpTo L (2 * L.length - 1) (Set.Ioo (-1) 1) w c) (hpos : PosDef (Set.Ioo (-1) 1) w) (hw : ∀ x ∈ Set.Ioo (-1 : ℝ) 1, 0 ≤ w x)
    (hint : ∀ p : ℝ[X], IntegrableOn (fun x => p.eval x * w x) (Set.Ioo (-1) 1)) (hab : a ≠ b) (hg : ContinuousOn g (Set.uIcc a b))
    (ho : OscillationBetween g a b (|b - a| / (2 * n + 1)) ε) :
    IntervalIntegrable (fun t => g t * w ((2 * t - a - b) / (b - a))) volume a b ∧
    |(b - a) / 2 * quad L (fun x => g ((b - a) / 2 * x + (a + b) / 2)) - c * ∫ t in a..b, g t * w ((2 * t - a - b) / (b - a))| ≤
      c * (|b - a| * (3 * ε) * ∫ x in Set.Ioo (-1 : ℝ) 1, w x) := by
  have e : ((2 * n - 1 : ℕ) : ℝ) + 2 = 2 * n + 1 := by rw [Nat.cast_sub (by omega)]; push_cast; ring
  obtain ⟨_, p, hp1, _, hp2⟩ := modulus_transport hab (2 * n - 1) (ε := ε) (f := g) (by rw [e]; exact ho)
  exact interval_approx hc hex hpos hw hint hab (hg.comp (by fun_prop) fun _ hx => mem_uIcc_of_Icc hx) (by rwa [hL]) fun x hx => (hp2 x hx).2.2

/-- C113 for both Gauss-Chebyshev rules -/
theorem C113_chebyshev (mode : Overflow) {n : ℕ} (hn : 0 < n) (hlt : n + 1 < 2 ^ 64) {a b ε : ℝ} (hab : a ≠ b) {g : ℝ → ℝ} (hg : ContinuousOn g (Set.uIcc a b))
    (ho : OscillationBetween g a b (|b - a| / (2 * n + 1)) ε) :
    (∃ r : Rule ℝ, GaussChebyshevFirstKind.new mode n = some r ∧
      IntervalIntegrable (fun t => g t * (1 / Real.sqrt (1 - ((2 * t - a - b) / (b - a)) ^ 2))) volume a b ∧
      |(AnyRule.chebyshevFirst r).value a b g - ∫ t in a..b, g t * (1 / Real.sqrt (1 - ((2 * t - a - b) / (b - a)) ^ 2))| ≤ |b - a| * (3 * ε) * Real.pi) ∧
    (∃ r : Rule ℝ, GaussChebyshevSecondKind.new mode n = some r ∧
      IntervalIntegrable (fun t => g t * Real.sqrt (1 - ((2 * t - a - b) / (b - a)) ^ 2)) volume a b ∧
      |(AnyRule.chebyshevSecond r).value a b g - ∫ t in a..b, g t * Real.sqrt (1 - ((2 * t - a - b) / (b - a)) ^ 2)| ≤ |b - a| * (3 * ε) * (Real.pi / 2)) := by
  refine ⟨⟨_, cheb1_new_eq hlt, ?_⟩, ⟨_, cheb2_new_eq hlt, ?_⟩⟩
  · have h := interval_modulus (L := pairs1 n) (w := chebW1) hn (length_pairs1 n) one_pos (exact1 hn) posDef_cheb1
      (fun x _ => by unfold chebW1; positivity) integrableOn_cheb1 hab hg ho
    have hm := gauss_mass (exact1 hn)
    rw [one_mul] at hm
    rw [← hm, show (List.map Prod.snd (pairs1 n)).sum = Real.pi from mass1 hn, one_mul, one_mul] at h
    rw [value_gauss_quad rfl]
    exact h
  · have h := interval_modulus (L := pairs2 n) (w := chebW2) hn (length_pairs2 n) one_pos (exact2 hn) posDef_cheb2
      (fun x _ => by unfold chebW2; positivity) integrableOn_cheb2 hab hg ho
    rw [integral_chebW2, one_mul, one_mul] at h
    rw [value_gauss_quad rfl]
    exact h

/-- C113 for Gauss-Jacobi, up to the gamma factor `c` of the crate's weights -/
theorem C113_jacobi {ext : Externals ℝ} (hext : ExactSolver ext) (mode : Overflow) {n : ℕ} (hn : 0 < n) {α β : FiniteAboveNegOne ℝ} (hα : -1 < α.get) (hβ : -1 < β.get)
    (hs : α.get + β.get ≠ -1) (hd : ¬ Delegated α.get β.get) (hodd : n % 2 = 0 ∨ n = 1 ∨ α = β) :
    ∃ (r : JacobiRule ℝ) (c : ℝ), GaussJacobi.new mode ext n α β = some r ∧ |c - 1| ≤ 6e-12 ∧
      ∀ (a b ε : ℝ) (g : ℝ → ℝ), a ≠ b → ContinuousOn g (Set.uIcc a b) → OscillationBetween g a b (|b - a| / (2 * n + 1)) ε →
      IntervalIntegrable (fun t => g t * ((1 - (2 * t - a - b) / (b - a)) ^ α.get * (1 + (2 * t - a - b) / (b - a)) ^ β.get)) volume a b ∧
      |(AnyRule.jacobi r).value a b g - c * ∫ t in a..b, g t * ((1 - (2 * t - a - b) / (b - a)) ^ α.get * (1 + (2 * t - a - b) / (b - a)) ^ β.get)| ≤
        c * (|b - a| * (3 * ε) * ∫ x in Set.Ioo (-1 : ℝ) 1, (1 - x) ^ α.get * (1 + x) ^ β.get) := by
  obtain ⟨r, c, hr, hc, hc1, he, hlen⟩ := jacobi_exact_rule hext mode hn hα hβ hs hd hodd
  refine ⟨r, c, hr, hc1, fun a b ε g hab hg ho => ?_⟩
  have hex : ExactUpTo r.nodeWeightPairs (2 * r.nodeWeightPairs.length - 1) (Set.Ioo (-1) 1) (jacW α.get β.get) c := by
    rw [hlen]; exact exactUpTo_of_jacobiExact he
  have h := interval_modulus hn hlen hc hex (posDef_jacobi hα hβ)
    (fun x hx => mul_nonneg (Real.rpow_nonneg (by linarith [hx.2]) _) (Real.rpow_nonneg (by linarith [hx.1]) _)) (integrable_jacobi hα hβ) hab hg ho
  rw [value_gauss_quad rfl]
  exact h

/-- C113 for Gauss-Legendre: the term with the modulus of continuity and the distance of the tabulated or asymptotic rule from the true one -/
theorem C113_legendre (mode : Overflow) {n : ℕ} (hn : 0 < n) (hlt : n + 1 < 2 ^ 64) :
    ∃ r : Rule ℝ, GaussLegendre.new mode n = some r ∧ ∀ (a b M ε : ℝ) (g : ℝ → ℝ), a ≠ b → ContinuousOn g (Set.uIcc a b) → (∀ x ∈ Set.uIcc a b, |g x| ≤ M) →
      OscillationBetween g a b (|b - a| / (2 * n + 1)) ε →
      |(AnyRule.legendre r).value a b g - ∫ t in a..b, g t| ≤ |b - a| * ((7.01 + 2e-16 * n) * ε + 2.5e-15 * M) := by
  obtain ⟨r, hr, G, hlen, hex, hin, hclose⟩ := legendre_true_rule mode hn hlt
  obtain ⟨r', hr', -, hpos', -⟩ := C37_legendre mode hn hlt
  obtain rfl : r = r' := Option.some.inj (hr.symm.trans hr')
  refine ⟨r, hr, fun a b M ε g hab hg hM ho => ?_⟩
  have hex' : ExactUpTo G (2 * G.length - 1) (Set.Ioo (-1) 1) (fun _ => 1) 1 := by rw [hlen]; exact hex
  have h := (interval_modulus hn hlen one_pos hex' posDef_one (fun x _ => zero_le_one) integrable_one hab hg ho).2
  simp only [mul_one, one_mul] at h
  have hmass : (∫ _ in Set.Ioo (-1 : ℝ) 1, (1 : ℝ)) = 2 := by simp; norm_num
  rw [hmass] at h
  have hGm : (G.map Prod.snd).sum = 2 := by rw [gauss_mass hex', hmass, one_mul]
  have hGn : ∀ q ∈ G, q.1 ∈ Set.Icc (-1 : ℝ) 1 := fun q hq =>
    ⟨(gauss_nodes_gt one_pos hex' posDef_one (fun x hx => hx.1.le) q hq).le, (gauss_nodes_lt one_pos hex' posDef_one (fun x hx => hx.2.le) q hq).le⟩
  have hGw : ∀ q ∈ G, 0 ≤ q.2 := fun q hq => (gauss_weights_pos one_pos hex' posDef_one q hq).le
  have e : ((2 * n - 1 : ℕ) : ℝ) + 2 = 2 * n + 1 := by rw [Nat.cast_sub (by omega)]; push_cast; ring
  obtain ⟨φ, _, _, hφ1, hφ2⟩ := modulus_transport hab (2 * n - 1) (ε := ε) (f := g) (by rw [e]; exact ho)
  rw [e] at hφ1
  have hε : 0 ≤ ε := (abs_nonneg _).trans (ho a Set.left_mem_uIcc a Set.left_mem_uIcc (by rw [sub_self, abs_zero]; positivity))
  have hrm : (r.asNodeWeightPairs.map Prod.snd).sum ≤ 2.0001 := by
    have h1 := hclose (fun _ => 1) 1 0 (by simp) (by simp) le_rfl
    have h2 : ∀ L : List (ℝ × ℝ), quad L (fun _ => 1) = (L.map Prod.snd).sum := fun L => by simp [quad]
    rw [h2, h2, hGm] at h1
    have := (abs_le.1 h1).2
    norm_num at this ⊢
    linarith
  have k1 : |quad r.asNodeWeightPairs (fun x => g ((b - a) / 2 * x + (a + b) / 2)) - quad r.asNodeWeightPairs φ| ≤ ε / 2 * 2.0001 := by
    rw [quad_sub]
    refine (abs_quad_le (fun p hp => (hpos' p hp).2.2.le) (ε := ε / 2) fun p hp => (hφ2 _ (Set.Ioo_subset_Icc_self (hin p hp))).1).trans ?_
    gcongr
  have k2 : |quad G (fun x => g ((b - a) / 2 * x + (a + b) / 2)) - quad G φ| ≤ ε / 2 * 2 := by
    rw [quad_sub]
    refine (abs_quad_le hGw (ε := ε / 2) fun p hp => (hφ2 _ (hGn p hp)).1).trans (le_of_eq ?_)
    rw [hGm]
  have k3 := hclose φ (M + ε / 2) ((2 * n + 1) / 2 * ε) (fun x hx => by
    have h1 := (hφ2 x (Set.Ioo_subset_Icc_self hx)).1
    have h2 := hM _ (mem_uIcc_of_Icc (a := a) (b := b) (Set.Ioo_subset_Icc_self hx))
    rw [abs_le] at h1 h2 ⊢
    constructor <;> linarith [h1.1, h1.2, h2.1, h2.2]) (fun x _ y _ => hφ1 x y) (by positivity)
  have k4 : |quad r.asNodeWeightPairs (fun x => g ((b - a) / 2 * x + (a + b) / 2)) - quad G (fun x => g ((b - a) / 2 * x + (a + b) / 2))| ≤
      2.00011 * ε + 4e-16 * n * ε + 5e-15 * M := by
    rw [abs_le] at k1 k2 k3 ⊢
    constructor <;> nlinarith [k1.1, k1.2, k2.1, k2.2, k3.1, k3.2]
  rw [value_gauss_quad rfl]
  have k5 : |(b - a) / 2 * quad r.asNodeWeightPairs (fun x => g ((b - a) / 2 * x + (a + b) / 2)) - (b - a) / 2 * quad G (fun x => g ((b - a) / 2 * x + (a + b) / 2))| ≤
      |b - a| / 2 * (2.00011 * ε + 4e-16 * n * ε + 5e-15 * M) := by
    rw [← mul_sub, abs_mul, abs_div, abs_two]
    exact mul_le_mul_of_nonneg_left k4 (by positivity)
  refine (abs_sub_le _ ((b - a) / 2 * quad G fun x => g ((b - a) / 2 * x + (a + b) / 2)) _).trans ?_
  refine (add_le_add k5 h).trans ?_
  have : 0 ≤ |b - a| * ε := by positivity
  nlinarith

/-! ### Instances: the square root of the distance from an interior point -/

theorem sqrt_oscillation (δ : ℝ) : OscillationBetween (fun t => Real.sqrt |t|) (-1) 1 δ (Real.sqrt δ) := by
  intro x _ y _ h
  have key : ∀ u v : ℝ, Real.sqrt |u| ≤ Real.sqrt |v| + Real.sqrt |u - v| := fun u v => by
    have h1 : |u| ≤ |v| + |u - v| := by
      have := abs_sub_abs_le_abs_sub u v
      linarith
    refine Real.sqrt_le_iff.2 ⟨by positivity, ?_⟩
    have h2 := Real.sq_sqrt (abs_nonneg v)
    have h3 := Real.sq_sqrt (abs_nonneg (u - v))
    have h4 : 0 ≤ Real.sqrt |v| * Real.sqrt |u - v| := by positivity
    nlinarith
  have h1 := key x y
  have h2 := key y x
  rw [abs_sub_comm y x] at h2
  have h3 := Real.sqrt_le_sqrt h
  rw [abs_le]
  constructor <;> linarith

/-- `C113_chebyshev` -/
example : ∃ r : Rule ℝ, GaussChebyshevSecondKind.new .checked 10000 = some r ∧
    |(AnyRule.chebyshevSecond r).value (-1) 1 (fun t => Real.sqrt |t|) - ∫ t in (-1 : ℝ)..1, Real.sqrt |t| * Real.sqrt (1 - ((2 * t - -1 - 1) / (1 - -1)) ^ 2)| ≤ 0.1 := by
  obtain ⟨-, r, hr, -, h⟩ := C113_chebyshev .checked (n := 10000) (by norm_num) (by norm_num) (a := -1) (b := 1) (by norm_num) (g := fun t => Real.sqrt |t|)
    (by fun_prop) (sqrt_oscillation _)
  refine ⟨r, hr, h.trans ?_⟩
  have h1 : |(1 : ℝ) - -1| = 2 := by norm_num
  rw [h1]
  have h2 : Real.sqrt (2 / (2 * ((10000 : ℕ) : ℝ) + 1)) ≤ 0.01 := Real.sqrt_le_iff.2 ⟨by norm_num, by norm_num⟩
  have h3 := Real.pi_lt_d2
  have h4 := Real.pi_pos
  have h5 : 0 ≤ Real.sqrt (2 / (2 * ((10000 : ℕ) : ℝ) + 1)) := Real.sqrt_nonneg _
  nlinarith

/-- `C113_legendre` -/
example : ∃ r : Rule ℝ, GaussLegendre.new .checked 10000 = some r ∧ |(AnyRule.legendre r).value (-1) 1 (fun t => Real.sqrt |t|) - (∫ t in (-1 : ℝ)..1, Real.sqrt |t|)| ≤ 0.15 := by
  obtain ⟨r, hr, h⟩ := C113_legendre .checked (n := 10000) (by norm_num) (by norm_num)
  refine ⟨r, hr, (h (-1) 1 1 _ (fun t => Real.sqrt |t|) (by norm_num) (by fun_prop) (fun x hx => ?_) (sqrt_oscillation _)).trans ?_⟩
  · rw [Set.uIcc_of_le (by norm_num)] at hx
    rw [abs_of_nonneg (Real.sqrt_nonneg _)]
    exact Real.sqrt_le_one.2 (abs_le.2 hx)
  have h1 : |(1 : ℝ) - -1| = 2 := by norm_num
  rw [h1]
  have h2 : Real.sqrt (2 / (2 * ((10000 : ℕ) : ℝ) + 1)) ≤ 0.01 := Real.sqrt_le_iff.2 ⟨by norm_num, by norm_num⟩
  push_cast at h2 ⊢
  nlinarith

/-- `C113_jacobi` -/
example : ∃ ext : Externals ℝ, ExactSolver ext ∧ ∃ (r : JacobiRule ℝ) (c : ℝ), GaussJacobi.new .checked ext 10000 ⟨1⟩ ⟨0⟩ = some r ∧ |c - 1| ≤ 6e-12 ∧
    |(AnyRule.jacobi r).value (-1) 1 (fun t => Real.sqrt |t|) - c * ∫ t in (-1 : ℝ)..1, Real.sqrt |t| * ((1 - (2 * t - -1 - 1) / (1 - -1)) ^ (1 : ℝ) * (1 + (2 * t - -1 - 1) / (1 - -1)) ^ (0 : ℝ))| ≤
      c * (0.06 * ∫ x in Set.Ioo (-1 : ℝ) 1, (1 - x) ^ (1 : ℝ) * (1 + x) ^ (0 : ℝ)) := by
  obtain ⟨r, c, hr, hc, h⟩ := C113_jacobi exactSolver_exists .checked (n := 10000) (by norm_num) (α := ⟨1⟩) (β := ⟨0⟩) (by norm_num [FiniteAboveNegOne.get]) (by norm_num [FiniteAboveNegOne.get])
    (by norm_num [FiniteAboveNegOne.get]) (by norm_num [FiniteAboveNegOne.get, Delegated]) (.inl rfl)
  refine ⟨_, exactSolver_exists, r, c, hr, hc, ?_⟩
  refine (h (-1) 1 _ (fun t => Real.sqrt |t|) (by norm_num) (by fun_prop) (sqrt_oscillation _)).2.trans ?_
  have h1 : |(1 : ℝ) - -1| = 2 := by norm_num
  rw [h1]
  have h2 : Real.sqrt (2 / (2 * ((10000 : ℕ) : ℝ) + 1)) ≤ 0.01 := Real.sqrt_le_iff.2 ⟨by norm_num, by norm_num⟩
  have hc0 : 0 ≤ c := by
    have := (abs_le.1 hc).1
    norm_num at this ⊢
    linarith
  refine mul_le_mul_of_nonneg_left (mul_le_mul_of_nonneg_right (by linarith) ?_) hc0
  exact setIntegral_nonneg measurableSet_Ioo fun x hx => mul_nonneg (Real.rpow_nonneg (by linarith [hx.2]) _) (Real.rpow_nonneg (by linarith [hx.1]) _)

end GaussQuad.Props
