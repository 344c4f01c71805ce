import Verif.Proofs.GaussUnbounded
import Verif.Props.GaussError

/-!
# C68: convergence of Gauss-Hermite and Gauss-Laguerre; C69: the sign of the error

C68: on the unbounded domains (`/repo/src/hermite/mod.rs`, `/repo/src/laguerre/mod.rs`) the sums converge for every continuous integrand that grows more slowly than the
weight function decays.  C69: an integrand whose derivative of order `2n` is nonnegative is never overestimated by the `n`-point rule.
-/

namespace GaussQuad.Props
open Polynomial Spec FloatOps MeasureTheory Filter

/-- C68 for Gauss-Hermite: every continuous integrand with `|f x| ≤ C exp (s x²)`, `s < 1` -/
theorem C68_hermite {ext : Externals ℝ} (hext : ExactSolver ext) (r : ℕ → Rule ℝ) (hr : ∀ m, GaussHermite.new ext (m + 1) = some (r m)) {f : ℝ → ℝ} (hf : Continuous f)
    {C s : ℝ} (hs : s < 1) (hC : ∀ x, |f x| ≤ C * Real.exp (s * x ^ 2)) (a b : ℝ) :
    Integrable (fun x => f x * Real.exp (-x ^ 2)) ∧
    Tendsto (fun m => (AnyRule.hermite (r m)).value a b f) atTop (nhds (∫ x, f x * Real.exp (-x ^ 2))) := by
  have hL : ∀ m, IsGauss (r m).nodeWeightPairs (m + 1) Set.univ hermW 1 := fun m => by
    obtain ⟨r', h1, h2⟩ := hermite_gauss hext (Nat.succ_pos m)
    rw [Nat.succ_eq_add_one, hr m, Option.some.injEq] at h1
    rw [h1]; exact h2
  have h := hermite_tendsto hL hf hs hC
  refine ⟨h.1, h.2.congr fun m => ?_⟩
  rw [value_real]; rfl

/-- C68 for Gauss-Laguerre: every integrand that is continuous on `[0, ∞)` with `|f x| ≤ K exp (s x)`, `s < 1`; the limit carries the gamma factor `c` of the crate's weights
(`C33_exact`), which does not depend on the degree -/
theorem C68_laguerre {ext : Externals ℝ} (hext : ExactSolver ext) {α : FiniteAboveNegOne ℝ} (hα : -1 < α.get) (r : ℕ → LaguerreRule ℝ)
    (hr : ∀ m, GaussLaguerre.new ext (m + 1) α = some (r m)) :
    ∃ c : ℝ, |c - 1| ≤ 2e-12 ∧ ∀ (f : ℝ → ℝ) (K s a b : ℝ), ContinuousOn f (Set.Ici 0) → s < 1 → (∀ x, 0 ≤ x → |f x| ≤ K * Real.exp (s * x)) →
      IntegrableOn (fun x => f x * (x ^ α.get * Real.exp (-x))) (Set.Ioi 0) ∧
      Tendsto (fun m => (AnyRule.laguerre (r m)).value a b f) atTop (nhds (c * ∫ x in Set.Ioi 0, f x * (x ^ α.get * Real.exp (-x)))) := by
  refine ⟨gamma (α.get + 1) / Real.Gamma (α.get + 1), C49_gamma_accurate fun m hm => ?_, fun f K s a b hf hs hK => ?_⟩
  · have : (0 : ℝ) ≤ m := Nat.cast_nonneg m
    linarith
  have hL : ∀ m, IsGauss (r m).nodeWeightPairs (m + 1) (Set.Ioi 0) (lagW α.get) (gamma (α.get + 1) / Real.Gamma (α.get + 1)) := fun m => by
    obtain ⟨r', h1, -, h2⟩ := laguerre_gauss hext (Nat.succ_pos m) α hα
    rw [Nat.succ_eq_add_one, hr m, Option.some.injEq] at h1
    rw [h1]; exact h2
  have h := laguerre_tendsto hα (laguerre_factor_pos hα) hL hf hs hK
  refine ⟨h.1, h.2.congr fun m => ?_⟩
  rw [value_real]; rfl

/-- the theorem covers the non-smooth, exponentially growing integrand `|x| exp (x²/2)` -/
example : ∃ ext : Externals ℝ, ExactSolver ext ∧ ∃ r : ℕ → Rule ℝ, (∀ m, GaussHermite.new ext (m + 1) = some (r m)) ∧
    Tendsto (fun m => (AnyRule.hermite (r m)).value 0 0 (fun x => |x| * Real.exp (1 / 2 * x ^ 2))) atTop
      (nhds (∫ x, |x| * Real.exp (1 / 2 * x ^ 2) * Real.exp (-x ^ 2))) := by
  refine ⟨_, exactSolver_exists, ?_⟩
  choose r hr _ using fun m : ℕ => hermite_gauss exactSolver_exists (Nat.succ_pos m)
  refine ⟨r, hr, (C68_hermite exactSolver_exists r hr (by fun_prop) (C := 2) (s := 3 / 4) (by norm_num) (fun x => ?_) 0 0).2⟩
  rw [abs_mul, abs_abs, abs_of_pos (Real.exp_pos _), show 3 / 4 * x ^ 2 = 1 / 4 * x ^ 2 + 1 / 2 * x ^ 2 by ring, Real.exp_add, ← mul_assoc]
  refine mul_le_mul_of_nonneg_right ?_ (Real.exp_pos _).le
  have := Real.add_one_le_exp (1 / 4 * x ^ 2)
  have h2 := sq_abs x
  nlinarith [sq_nonneg (|x| - 1)]

example : ∃ ext : Externals ℝ, ExactSolver ext ∧ ∃ r : ℕ → LaguerreRule ℝ, (∀ m, GaussLaguerre.new ext (m + 1) ⟨-1 / 2⟩ = some (r m)) ∧ ∃ c : ℝ, |c - 1| ≤ 2e-12 ∧
    Tendsto (fun m => (AnyRule.laguerre (r m)).value 0 0 (fun x => |x - 1|)) atTop (nhds (c * ∫ x in Set.Ioi 0, |x - 1| * (x ^ (-1 / 2 : ℝ) * Real.exp (-x)))) := by
  refine ⟨_, exactSolver_exists, ?_⟩
  choose r hr _ _ using fun m : ℕ => laguerre_gauss exactSolver_exists (Nat.succ_pos m) ⟨-1 / 2⟩ (by norm_num)
  obtain ⟨c, hc, h⟩ := C68_laguerre exactSolver_exists (α := ⟨-1 / 2⟩) (by norm_num) r hr
  refine ⟨r, hr, c, hc, (h (fun x => |x - 1|) 2 (1 / 2) 0 0 (by fun_prop) (by norm_num) fun x hx => ?_).2⟩
  have := Real.add_one_le_exp (1 / 2 * x)
  rw [abs_abs, abs_le]
  constructor <;> linarith

/-! ## C69 -/

/-- `N` continuous derivatives on an open set -/
theorem derivs_of_contDiffOn {g : ℝ → ℝ} {N : ℕ} {S : Set ℝ} (h : ContDiffOn ℝ N g S) (hS : IsOpen S) : Derivs (fun k => iteratedDeriv k g) N S := fun k hk x hx => by
  have h1 := h.differentiableOn_iteratedDerivWithin (m := k) (by exact_mod_cast hk) hS.uniqueDiffOn x hx
  have h2 : DifferentiableAt ℝ (iteratedDerivWithin k g S) x := h1.differentiableAt (hS.mem_nhds hx)
  have h3 : iteratedDerivWithin k g S =ᶠ[nhds x] iteratedDeriv k g :=
    Filter.eventuallyEq_of_mem (hS.mem_nhds hx) (iteratedDerivWithin_of_isOpen hS)
  have h5 := (h3.differentiableAt_iff.1 h2).hasDerivAt
  rw [← iteratedDeriv_succ] at h5
  exact h5

/-- C69 for Gauss-Hermite -/
theorem C69_hermite {ext : Externals ℝ} (hext : ExactSolver ext) {n : ℕ} (hn : 0 < n) {g : ℝ → ℝ} (hg : ContDiff ℝ (2 * n : ℕ) g) (h0 : ∀ x, 0 ≤ iteratedDeriv (2 * n) g x)
    (hi : Integrable fun x => g x * Real.exp (-x ^ 2)) (a b : ℝ) :
    ∃ r : Rule ℝ, GaussHermite.new ext n = some r ∧ (AnyRule.hermite r).value a b g ≤ ∫ x, g x * Real.exp (-x ^ 2) := by
  obtain ⟨r, h1, h2⟩ := hermite_gauss hext hn
  refine ⟨r, h1, ?_⟩
  have hL : 0 < r.nodeWeightPairs.length := by rw [h2.length]; exact hn
  have h := gauss_below Set.ordConnected_univ MeasurableSet.univ hL one_pos h2.exact' (gauss_nodes_nodup one_pos h2.exact' posDef_hermite)
    (fun q _ => Set.mem_univ _) (fun x _ => (Real.exp_pos _).le) integrable_hermite (F := fun k => iteratedDeriv k g)
    (by rw [h2.length]; exact derivs_of_contDiffOn hg.contDiffOn isOpen_univ) (by rw [h2.length]; exact fun x _ => h0 x)
    (by rw [integrableOn_univ]; simp only [iteratedDeriv_zero]; exact hi)
  rw [setIntegral_univ, one_mul] at h
  simp only [iteratedDeriv_zero] at h
  rw [value_real]
  exact h

/-- C69 for Gauss-Laguerre -/
theorem C69_laguerre {ext : Externals ℝ} (hext : ExactSolver ext) {n : ℕ} (hn : 0 < n) {α : FiniteAboveNegOne ℝ} (hα : -1 < α.get) :
    ∃ (r : LaguerreRule ℝ) (c : ℝ), GaussLaguerre.new ext n α = some r ∧ |c - 1| ≤ 2e-12 ∧
      ∀ (g : ℝ → ℝ) (a b : ℝ), ContDiffOn ℝ (2 * n : ℕ) g (Set.Ioi 0) → (∀ x, 0 < x → 0 ≤ iteratedDeriv (2 * n) g x) →
      IntegrableOn (fun x => g x * (x ^ α.get * Real.exp (-x))) (Set.Ioi 0) →
      (AnyRule.laguerre r).value a b g ≤ c * ∫ x in Set.Ioi 0, g x * (x ^ α.get * Real.exp (-x)) := by
  obtain ⟨r, h1, -, h2⟩ := laguerre_gauss hext hn α hα
  have hc := laguerre_factor_pos hα
  refine ⟨r, gamma (α.get + 1) / Real.Gamma (α.get + 1), h1, C49_gamma_accurate fun m hm => ?_, fun g a b hg h0 hi => ?_⟩
  · have : (0 : ℝ) ≤ m := Nat.cast_nonneg m
    linarith
  have hL : 0 < r.nodeWeightPairs.length := by rw [h2.length]; exact hn
  have h := gauss_below Set.ordConnected_Ioi measurableSet_Ioi hL hc h2.exact' (gauss_nodes_nodup hc h2.exact' (posDef_laguerre hα))
    (fun q hq => gauss_nodes_gt hc h2.exact' (posDef_laguerre hα) (fun x hx => (show (0 : ℝ) < x from hx).le) q hq)
    (fun x hx => (lagW_pos α.get hx).le) (integrable_laguerre hα) (F := fun k => iteratedDeriv k g)
    (by rw [h2.length]; exact derivs_of_contDiffOn hg isOpen_Ioi) (by rw [h2.length]; exact fun x hx => h0 x hx)
    (by simp only [iteratedDeriv_zero]; exact hi)
  simp only [iteratedDeriv_zero] at h
  rw [value_real]
  exact h

/-- the sign of the error on an interval -/
theorem interval_below {L : List (ℝ × ℝ)} {w : ℝ → ℝ} (hL : 0 < L.length) {c : ℝ} (hc : 0 < c)
    (hex : ExactUpTo L (2 * L.length - 1) (Set.Ioo (-1) 1) w c) (hpos : PosDef (Set.Ioo (-1) 1) w) (hw : ∀ x ∈ Set.Ioo (-1 : ℝ) 1, 0 ≤ w x)
    (hint : ∀ p : ℝ[X], IntegrableOn (fun x => p.eval x * w x) (Set.Ioo (-1) 1)) {a b : ℝ} (hab : a < b) {g : ℝ → ℝ} (hg : ContDiffOn ℝ (2 * L.length : ℕ) g (Set.Ioo a b))
    (h0 : ∀ x ∈ Set.Ioo a b, 0 ≤ iteratedDeriv (2 * L.length) g x) (hi : IntervalIntegrable (fun t => g t * w ((2 * t - a - b) / (b - a))) volume a b) :
    (b - a) / 2 * quad L (fun x => g ((b - a) / 2 * x + (a + b) / 2)) ≤ c * ∫ t in a..b, g t * w ((2 * t - a - b) / (b - a)) := by
  have hu : Set.uIoo a b = Set.Ioo a b := Set.uIoo_of_lt hab
  have hnode : ∀ q ∈ L, q.1 ∈ Set.Ioo (-1 : ℝ) 1 := fun q hq =>
    ⟨gauss_nodes_gt hc hex hpos (fun x hx => hx.1.le) q hq, gauss_nodes_lt hc hex hpos (fun x hx => hx.2.le) q hq⟩
  have hi' : IntegrableOn (fun x => g ((b - a) / 2 * x + (a + b) / 2) * w x) (Set.Ioo (-1) 1) := by
    have h1 := (hi.comp_mul_left (c := (b - a) / 2)).comp_add_right ((a + b) / (b - a))
    have hne : b - a ≠ 0 := by linarith
    have e1 : a / ((b - a) / 2) - (a + b) / (b - a) = -1 := by field_simp; ring
    have e2 : b / ((b - a) / 2) - (a + b) / (b - a) = 1 := by field_simp; ring
    rw [e1, e2, intervalIntegrable_iff_integrableOn_Ioo_of_le (by norm_num)] at h1
    refine h1.congr_fun (fun x _ => ?_) measurableSet_Ioo
    simp only
    rw [show (b - a) / 2 * (x + (a + b) / (b - a)) = (b - a) / 2 * x + (a + b) / 2 by field_simp]
    congr 2
    field_simp
    ring
  have h := gauss_below Set.ordConnected_Ioo measurableSet_Ioo hL hc hex (gauss_nodes_nodup hc hex hpos) hnode hw hint
    (derivs_affine hab.ne (derivs_of_contDiffOn (by rw [hu]; exact hg) isOpen_Ioo))
    (fun x hx => by
      have := h0 _ (by rw [← hu]; exact affine_mem hab.ne hx)
      have : 0 < b - a := by linarith
      positivity)
    (by simpa using hi')
  simp only [pow_zero, one_mul, iteratedDeriv_zero] at h
  rw [interval_transport hab.ne]
  have hd : 0 < (b - a) / 2 := by linarith
  have := mul_le_mul_of_nonneg_left h hd.le
  linarith

/-- C69 for Gauss-Chebyshev of the first and the second kind -/
theorem C69_chebyshev (mode : Overflow) {n : ℕ} (hn : 0 < n) (hlt : n + 1 < 2 ^ 64) {a b : ℝ} (hab : a < b) {g : ℝ → ℝ} (hg : ContDiffOn ℝ (2 * n : ℕ) g (Set.Ioo a b))
    (h0 : ∀ x ∈ Set.Ioo a b, 0 ≤ iteratedDeriv (2 * n) g x) :
    (IntervalIntegrable (fun t => g t * (1 / Real.sqrt (1 - ((2 * t - a - b) / (b - a)) ^ 2))) volume a b → ∃ r : Rule ℝ, GaussChebyshevFirstKind.new mode n = some r ∧
      (AnyRule.chebyshevFirst r).value a b g ≤ ∫ t in a..b, g t * (1 / Real.sqrt (1 - ((2 * t - a - b) / (b - a)) ^ 2))) ∧
    (IntervalIntegrable (fun t => g t * Real.sqrt (1 - ((2 * t - a - b) / (b - a)) ^ 2)) volume a b → ∃ r : Rule ℝ, GaussChebyshevSecondKind.new mode n = some r ∧
      (AnyRule.chebyshevSecond r).value a b g ≤ ∫ t in a..b, g t * Real.sqrt (1 - ((2 * t - a - b) / (b - a)) ^ 2)) := by
  refine ⟨fun hi => ⟨_, cheb1_new_eq hlt, ?_⟩, fun hi => ⟨_, cheb2_new_eq hlt, ?_⟩⟩
  · have h := interval_below (L := pairs1 n) (w := chebW1) (by rwa [length_pairs1]) one_pos (exact1 hn) posDef_cheb1
      (fun x _ => by unfold chebW1; positivity) integrableOn_cheb1 hab (by rw [length_pairs1]; exact hg) (by rw [length_pairs1]; exact h0) hi
    rw [one_mul] at h
    rw [value_gauss_quad rfl]
    exact h
  · have h := interval_below (L := pairs2 n) (w := chebW2) (by rwa [length_pairs2]) one_pos (exact2 hn) posDef_cheb2
      (fun x _ => by unfold chebW2; positivity) integrableOn_cheb2 hab (by rw [length_pairs2]; exact hg) (by rw [length_pairs2]; exact h0) hi
    rw [one_mul] at h
    rw [value_gauss_quad rfl]
    exact h

/-- C69 for Gauss-Jacobi, for the degrees and parameters of `C66_jacobi` -/
theorem C69_jacobi {ext : Externals ℝ} (hext : ExactSolver ext) (mode : Overflow) {n : ℕ} (hn : 0 < n) {α β : FiniteAboveNegOne ℝ} (hα : -1 < α.get) (hβ : -1 < β.get)
    (hs : α.get + β.get ≠ -1) (hd : ¬ Delegated α.get β.get) (hodd : n % 2 = 0 ∨ n = 1 ∨ α = β) :
    ∃ (r : JacobiRule ℝ) (c : ℝ), GaussJacobi.new mode ext n α β = some r ∧ |c - 1| ≤ 6e-12 ∧
      ∀ (a b : ℝ) (g : ℝ → ℝ), a < b → ContDiffOn ℝ (2 * n : ℕ) g (Set.Ioo a b) → (∀ x ∈ Set.Ioo a b, 0 ≤ iteratedDeriv (2 * n) g x) →
      IntervalIntegrable (fun t => g t * ((1 - (2 * t - a - b) / (b - a)) ^ α.get * (1 + (2 * t - a - b) / (b - a)) ^ β.get)) volume a b →
      (AnyRule.jacobi r).value a b g ≤ c * ∫ t in a..b, g t * ((1 - (2 * t - a - b) / (b - a)) ^ α.get * (1 + (2 * t - a - b) / (b - a)) ^ β.get) := by
  obtain ⟨r, c, hr, hc, hc1, he, hlen⟩ := jacobi_exact_rule hext mode hn hα hβ hs hd hodd
  refine ⟨r, c, hr, hc1, fun a b g hab hg h0 hi => ?_⟩
  have hex : ExactUpTo r.nodeWeightPairs (2 * r.nodeWeightPairs.length - 1) (Set.Ioo (-1) 1) (jacW α.get β.get) c := by
    rw [hlen]; exact exactUpTo_of_jacobiExact he
  have h := interval_below (by rwa [hlen]) hc hex (posDef_jacobi hα hβ)
    (fun x hx => mul_nonneg (Real.rpow_nonneg (by linarith [hx.2]) _) (Real.rpow_nonneg (by linarith [hx.1]) _)) (integrable_jacobi hα hβ) hab
    (by rw [hlen]; exact hg) (by rw [hlen]; exact h0) hi
  rw [value_gauss_quad rfl]
  exact h

theorem iteratedDeriv_exp_nonneg (k : ℕ) (x : ℝ) : 0 ≤ iteratedDeriv k Real.exp x := by
  rw [iteratedDeriv_eq_iterate, Real.iter_deriv_exp]; exact (Real.exp_pos x).le

/-- `∫ exp(x) exp(-x²)` is underestimated at every degree -/
example : ∃ ext : Externals ℝ, ExactSolver ext ∧ ∃ r : Rule ℝ, GaussHermite.new ext 7 = some r ∧
    (AnyRule.hermite r).value 0 0 Real.exp ≤ ∫ x, Real.exp x * Real.exp (-x ^ 2) := by
  refine ⟨_, exactSolver_exists, C69_hermite exactSolver_exists (by norm_num) Real.contDiff_exp (iteratedDeriv_exp_nonneg _) ?_ 0 0⟩
  choose r hr _ using fun m : ℕ => hermite_gauss exactSolver_exists (Nat.succ_pos m)
  refine (C68_hermite exactSolver_exists r hr Real.continuous_exp (C := Real.exp 1) (s := 1 / 2) (by norm_num) (fun x => ?_) 0 0).1
  rw [abs_of_pos (Real.exp_pos x), ← Real.exp_add, Real.exp_le_exp]
  nlinarith [sq_nonneg (x - 1)]

/-- `∫ exp(x/2) x exp(-x)` with 3 nodes -/
example : ∃ ext : Externals ℝ, ExactSolver ext ∧ ∃ (r : LaguerreRule ℝ) (c : ℝ), GaussLaguerre.new ext 3 ⟨1⟩ = some r ∧ |c - 1| ≤ 2e-12 ∧
    (AnyRule.laguerre r).value 0 0 (fun x => Real.exp (1 / 2 * x)) ≤ c * ∫ x in Set.Ioi 0, Real.exp (1 / 2 * x) * (x ^ (1 : ℝ) * Real.exp (-x)) := by
  refine ⟨_, exactSolver_exists, ?_⟩
  obtain ⟨r, c, h1, h2, h3⟩ := C69_laguerre exactSolver_exists (n := 3) (by norm_num) (α := ⟨1⟩) (by norm_num)
  refine ⟨r, c, h1, h2, h3 _ 0 0 (by fun_prop) (fun x _ => ?_) (laguerre_exp_integrable (by norm_num) (by norm_num))⟩
  rw [iteratedDeriv_comp_const_mul Real.contDiff_exp]
  exact mul_nonneg (by positivity) (iteratedDeriv_exp_nonneg _ _)

example : ∃ r : Rule ℝ, GaussChebyshevFirstKind.new .checked 5 = some r ∧
    (AnyRule.chebyshevFirst r).value 0 2 Real.exp ≤ ∫ t in (0 : ℝ)..2, Real.exp t * (1 / Real.sqrt (1 - ((2 * t - 0 - 2) / (2 - 0)) ^ 2)) := by
  refine (C69_chebyshev .checked (n := 5) (by norm_num) (by norm_num) (a := 0) (b := 2) two_pos Real.contDiff_exp.contDiffOn fun x _ => iteratedDeriv_exp_nonneg _ _).1 ?_
  obtain ⟨r, _, h, _⟩ := (C66_chebyshev .checked (n := 5) (by norm_num) (by norm_num) (a := 0) (b := 2) (by norm_num) (g := Real.exp) (K := Real.exp 2)
    ⟨Real.contDiff_exp.contDiffOn, fun x hx => by
      rw [Set.uIoo_of_lt two_pos] at hx
      rw [iteratedDeriv_eq_iterate, Real.iter_deriv_exp, abs_of_pos (Real.exp_pos x)]
      exact Real.exp_le_exp.2 hx.2.le⟩).1
  exact h

example : ∃ ext : Externals ℝ, ExactSolver ext ∧ ∃ (r : JacobiRule ℝ) (c : ℝ), GaussJacobi.new .checked ext 4 ⟨1⟩ ⟨0⟩ = some r ∧ |c - 1| ≤ 6e-12 ∧
    (AnyRule.jacobi r).value 0 2 Real.exp ≤ c * ∫ t in (0 : ℝ)..2, Real.exp t * ((1 - (2 * t - 0 - 2) / (2 - 0)) ^ (1 : ℝ) * (1 + (2 * t - 0 - 2) / (2 - 0)) ^ (0 : ℝ)) := by
  refine ⟨_, exactSolver_exists, ?_⟩
  obtain ⟨r, c, h1, h2, h3⟩ := C69_jacobi exactSolver_exists .checked (n := 4) (by norm_num) (α := ⟨1⟩) (β := ⟨0⟩) (by norm_num) (by norm_num) (by norm_num)
    (by unfold Delegated; norm_num) (Or.inl (by norm_num))
  refine ⟨r, c, h1, h2, h3 0 2 Real.exp two_pos Real.contDiff_exp.contDiffOn (fun x _ => iteratedDeriv_exp_nonneg _ _) ?_⟩
  refine Continuous.intervalIntegrable ?_ _ _
  simp only [finiteAboveNegOne_get_mk, Real.rpow_one, Real.rpow_zero]
  fun_prop

end GaussQuad.Props
