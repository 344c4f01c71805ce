import Verif.Proofs.RiemannConv
import Verif.Props.UnboundedConvergence
import Verif.Props.MonotoneError

/-!
# C74: convergence for integrands that are continuous almost everywhere

On a bounded interval these are the Riemann-integrable functions (Lebesgue's criterion): bounded and continuous at almost every point.  Step functions, functions of bounded variation
and functions with countably many jumps are included.  On unbounded ranges the bound is the growth bound of C68.
-/

namespace GaussQuad.Props
open Spec FloatOps MeasureTheory Filter Topology

theorem quad_mono_all {L : List (ℝ × ℝ)} (hL : ∀ q ∈ L, 0 ≤ q.2) (f g : ℝ → ℝ) (h : ∀ x, f x ≤ g x) : quad L f ≤ quad L g := quad_mono hL fun p _ => h p.1

/-- C74 for Gauss-Hermite: every integrand with `|f x| ≤ C exp (s x²)`, `s < 1`, that is continuous at almost every point -/
theorem C74_hermite {ext : Externals ℝ} (hext : ExactSolver ext) (r : ℕ → Rule ℝ) (hr : ∀ m, GaussHermite.new ext (m + 1) = some (r m)) {f : ℝ → ℝ}
    (hcont : ∀ᵐ x, ContinuousAt f x) {C s : ℝ} (hs : s < 1) (hC : ∀ x, |f x| ≤ C * Real.exp (s * x ^ 2)) (a b : ℝ) :
    Integrable (fun x => f x * Real.exp (-x ^ 2)) ∧
    Tendsto (fun m => (AnyRule.hermite (r m)).value a b f) atTop (nhds (∫ x, f x * Real.exp (-x ^ 2))) := by
  have hL : ∀ m, IsGauss (r m).nodeWeightPairs (m + 1) Set.univ hermW 1 := fun m => by
    obtain ⟨r', h1, h2⟩ := hermite_gauss hext (Nat.succ_pos m)
    rw [Nat.succ_eq_add_one, hr m, Option.some.injEq] at h1
    rw [h1]; exact h2
  have hw : ∀ x ∈ (Set.univ : Set ℝ), 0 ≤ hermW x := fun x _ => (hermW_pos x).le
  have hdi := dens_integral MeasurableSet.univ hermW_meas hw
  have hdb := dens_integrable MeasurableSet.univ hermW_meas hw
  have hval : ∀ m (g : ℝ → ℝ), (AnyRule.hermite (r m)).value a b g = quad (r m).nodeWeightPairs g := fun m g => by rw [value_real]; rfl
  have h := tendsto_ae_continuous (ν := dens Set.univ hermW) (Q := fun m g => (AnyRule.hermite (r m)).value a b g)
    (fun m f g hfg => by
      simp only [hval]
      exact quad_mono_all (fun q hq => (gauss_weights_pos one_pos (hL m).exact' posDef_hermite q hq).le) f g hfg)
    (φ := fun x => Real.exp (s * x ^ 2)) (by fun_prop) (fun x => Real.exp_pos _)
    ((hdb _).2 (by rw [integrableOn_univ]; exact hermite_exp_integrable hs)) (C := C)
    (fun g hg hgC => by
      have := (C68_hermite hext r hr hg hs hgC a b).2
      rw [hdi, Measure.restrict_univ]; exact this)
    hC ((withDensity_absolutelyContinuous _ _).ae_le (by rw [Measure.restrict_univ]; exact hcont))
  rw [hdi, hdb, Measure.restrict_univ, integrableOn_univ] at h
  exact h

/-- C74 for Gauss-Laguerre: every integrand with `|f x| ≤ K exp (s x)` for `x > 0`, `s < 1`, that is continuous at almost every point of `(0, ∞)` -/
theorem C74_laguerre {ext : Externals ℝ} (hext : ExactSolver ext) {α : FiniteAboveNegOne ℝ} (hα : -1 < α.get) (r : ℕ → LaguerreRule ℝ)
    (hr : ∀ m, GaussLaguerre.new ext (m + 1) α = some (r m)) :
    ∃ c : ℝ, |c - 1| ≤ 2e-12 ∧ ∀ (f : ℝ → ℝ) (K s a b : ℝ), (∀ᵐ x, 0 < x → ContinuousAt f x) → s < 1 → (∀ x, 0 < x → |f x| ≤ K * Real.exp (s * x)) →
      IntegrableOn (fun x => f x * (x ^ α.get * Real.exp (-x))) (Set.Ioi 0) ∧
      Tendsto (fun m => (AnyRule.laguerre (r m)).value a b f) atTop (nhds (c * ∫ x in Set.Ioi 0, f x * (x ^ α.get * Real.exp (-x)))) := by
  set c := gamma (α.get + 1) / Real.Gamma (α.get + 1) with hc'
  have hc : 0 < c := laguerre_factor_pos hα
  have hL : ∀ m, IsGauss (r m).nodeWeightPairs (m + 1) (Set.Ioi 0) (lagW α.get) c := fun m => by
    obtain ⟨r', h1, -, h2⟩ := laguerre_gauss hext (Nat.succ_pos m) α hα
    rw [Nat.succ_eq_add_one, hr m, Option.some.injEq] at h1
    rw [h1]; exact h2
  refine ⟨c, C49_gamma_accurate fun m hm => ?_, fun f K s a b hcont hs hK => ?_⟩
  · have : (0 : ℝ) ≤ m := Nat.cast_nonneg m
    linarith
  have hS : MeasurableSet (Set.Ioi (0 : ℝ)) := measurableSet_Ioi
  have hw : ∀ x ∈ Set.Ioi (0 : ℝ), 0 ≤ lagW α.get x := fun x hx => (lagW_pos α.get hx).le
  have hdi := dens_integral hS (lagW_meas α.get) hw
  have hdb := dens_integrable hS (lagW_meas α.get) hw
  have hpos := fun m => gauss_weights_pos hc (hL m).exact' (posDef_laguerre hα)
  have hnode : ∀ m, ∀ q ∈ (r m).nodeWeightPairs, 0 < q.1 := fun m q hq => gauss_nodes_gt hc (hL m).exact' (posDef_laguerre hα) (fun x hx => le_of_lt hx) q hq
  have hval : ∀ m (g : ℝ → ℝ), (AnyRule.laguerre (r m)).value a b g = quad (r m).nodeWeightPairs g := fun m g => by rw [value_real]; rfl
  have hK0 : 0 ≤ K := by
    have := (abs_nonneg _).trans (hK 1 one_pos)
    exact nonneg_of_mul_nonneg_left this (Real.exp_pos _)
  set F : ℝ → ℝ := (Set.Ioi 0).indicator f with hF
  have hFx : ∀ x, 0 < x → F x = f x := fun x hx => Set.indicator_of_mem (Set.mem_Ioi.2 hx) f
  have h := tendsto_ae_continuous (ν := dens (Set.Ioi 0) (lagW α.get)) (Q := fun m g => c⁻¹ * quad (r m).nodeWeightPairs g)
    (fun m f g hfg => mul_le_mul_of_nonneg_left (quad_mono_all (fun q hq => (hpos m q hq).le) f g hfg) (by positivity))
    (φ := fun x => Real.exp (s * x)) (by fun_prop) (fun x => Real.exp_pos _)
    ((hdb _).2 (laguerre_exp_integrable hα hs)) (C := K)
    (fun g hg hgC => by
      have := ((laguerre_tendsto hα hc hL hg.continuousOn hs (fun x _ => hgC x)).2).const_mul c⁻¹
      rw [← mul_assoc, inv_mul_cancel₀ hc.ne', one_mul] at this
      rw [hdi]; exact this)
    (f := F)
    (fun x => by
      rcases lt_or_ge 0 x with hx | hx
      · rw [hFx x hx]; exact hK x hx
      · rw [hF, Set.indicator_of_notMem (by simpa using hx), abs_zero]
        exact mul_nonneg hK0 (Real.exp_pos _).le)
    ((withDensity_absolutelyContinuous _ _).ae_le (by
      refine (ae_restrict_iff' hS).2 ?_
      filter_upwards [hcont] with x hx h0
      exact (hx h0).congr (by filter_upwards [Ioi_mem_nhds h0] with y hy using (hFx y hy).symm)))
  rw [hdi, hdb] at h
  have hcong : ∀ x ∈ Set.Ioi (0 : ℝ), F x * lagW α.get x = f x * (x ^ α.get * Real.exp (-x)) := fun x hx => by rw [hFx x hx]; rfl
  refine ⟨h.1.congr_fun hcong hS, ?_⟩
  rw [setIntegral_congr_fun hS hcong] at h
  refine (h.2.const_mul c).congr fun m => ?_
  rw [hval, ← mul_assoc, mul_inv_cancel₀ hc.ne', one_mul]
  exact quad_congr fun q hq => hFx _ (hnode m q hq)

/-- the transport of almost everywhere statements by a non-constant affine map -/
theorem ae_affine {α β : ℝ} (hα : α ≠ 0) {P : ℝ → Prop} (h : ∀ᵐ t, P t) : ∀ᵐ x, P (α * x + β) := by
  have h1 : ∀ᵐ t, P (t + β) := by
    rw [ae_iff] at h ⊢
    have := measure_preimage_add_right (volume : Measure ℝ) β {t | ¬ P t}
    rw [h] at this
    exact this
  rw [ae_iff] at h1 ⊢
  have := Real.volume_preimage_mul_left hα {t | ¬ P (t + β)}
  rw [h1, mul_zero] at this
  exact this

/-- positive rules on (-1, 1) that converge for continuous integrands converge for Riemann-integrable ones, on every interval -/
theorem interval_riemann {L : ℕ → List (ℝ × ℝ)} (hpos : ∀ m, ∀ q ∈ L m, 0 ≤ q.2) (hnode : ∀ m, ∀ q ∈ L m, -1 < q.1 ∧ q.1 < 1) {w : ℝ → ℝ} (hwm : Measurable w)
    (hw : ∀ x ∈ Set.Ioo (-1 : ℝ) 1, 0 ≤ w x) (hwi : IntegrableOn w (Set.Ioo (-1) 1)) {c : ℝ} (hc : 0 < c)
    (hconv : ∀ g : ℝ → ℝ, Continuous g → Tendsto (fun m => quad (L m) g) atTop (𝓝 (c * ∫ x in Set.Ioo (-1 : ℝ) 1, g x * w x))) {a b : ℝ} (hab : a ≠ b) {f : ℝ → ℝ} {B : ℝ}
    (hB : ∀ t ∈ Set.uIcc a b, |f t| ≤ B) (hcont : ∀ᵐ t, t ∈ Set.uIcc a b → ContinuousAt f t) :
    IntervalIntegrable (fun t => f t * w ((2 * t - a - b) / (b - a))) volume a b ∧
    Tendsto (fun m => (b - a) / 2 * quad (L m) (fun x => f ((b - a) / 2 * x + (a + b) / 2))) atTop
      (𝓝 (c * ∫ t in a..b, f t * w ((2 * t - a - b) / (b - a)))) := by
  have hS : MeasurableSet (Set.Ioo (-1 : ℝ) 1) := measurableSet_Ioo
  have hdi := dens_integral hS hwm hw
  have hdb := dens_integrable hS hwm hw
  have hba : b - a ≠ 0 := sub_ne_zero.2 hab.symm
  have hB0 : 0 ≤ B := (abs_nonneg _).trans (hB a Set.left_mem_uIcc)
  have hmem : ∀ x ∈ Set.Icc (-1 : ℝ) 1, (b - a) / 2 * x + (a + b) / 2 ∈ Set.uIcc a b := fun x hx => by
    rw [Set.mem_uIcc]
    rcases le_total a b with h | h
    · left; constructor <;> nlinarith [hx.1, hx.2]
    · right; constructor <;> nlinarith [hx.1, hx.2]
  set g : ℝ → ℝ := fun x => f ((b - a) / 2 * x + (a + b) / 2) with hg
  set F : ℝ → ℝ := (Set.Ioo (-1) 1).indicator g with hF
  have hFx : ∀ x ∈ Set.Ioo (-1 : ℝ) 1, F x = g x := fun x hx => Set.indicator_of_mem hx g
  have h := tendsto_ae_continuous (ν := dens (Set.Ioo (-1) 1) w) (Q := fun m g => c⁻¹ * quad (L m) g)
    (fun m f g hfg => mul_le_mul_of_nonneg_left (quad_mono_all (hpos m) f g hfg) (by positivity))
    (φ := fun _ => 1) (by fun_prop) (fun _ => one_pos) ((hdb _).2 (by simpa using hwi)) (C := B)
    (fun g hg hgC => by
      have := (hconv g hg).const_mul c⁻¹
      rw [← mul_assoc, inv_mul_cancel₀ hc.ne', one_mul] at this
      rw [hdi]; exact this)
    (f := F)
    (fun x => by
      rw [mul_one]
      by_cases hx : x ∈ Set.Ioo (-1 : ℝ) 1
      · rw [hFx x hx]; exact hB _ (hmem x ⟨hx.1.le, hx.2.le⟩)
      · rw [hF, Set.indicator_of_notMem hx, abs_zero]; exact hB0)
    ((withDensity_absolutelyContinuous _ _).ae_le (by
      refine (ae_restrict_iff' hS).2 ?_
      filter_upwards [ae_affine (β := (a + b) / 2) (div_ne_zero hba two_ne_zero) hcont] with x hx h0
      have h1 : ContinuousAt g x := ContinuousAt.comp (f := fun x => (b - a) / 2 * x + (a + b) / 2) (hx (hmem x ⟨h0.1.le, h0.2.le⟩)) (by fun_prop)
      exact h1.congr (by filter_upwards [Ioo_mem_nhds h0.1 h0.2] with y hy using (hFx y hy).symm)))
  rw [hdi, hdb] at h
  have hcong : ∀ x ∈ Set.Ioo (-1 : ℝ) 1, F x * w x = g x * w x := fun x hx => by rw [hFx x hx]
  have h1 := h.1.congr_fun hcong hS
  have h2 := h.2
  rw [setIntegral_congr_fun hS hcong] at h2
  constructor
  · have h3 : IntervalIntegrable (fun x => g x * w x) volume (-1) 1 := by
      rw [intervalIntegrable_iff_integrableOn_Ioo_of_le (by norm_num)]; exact h1
    have h4 := (h3.comp_mul_left (c := 2 / (b - a))).comp_add_right (-((a + b) / 2))
    have e1 : -1 / (2 / (b - a)) - -((a + b) / 2) = a := by field_simp; ring
    have e2 : 1 / (2 / (b - a)) - -((a + b) / 2) = b := by field_simp; ring
    rw [e1, e2] at h4
    refine h4.congr fun t _ => ?_
    simp only [hg]
    congr 2 <;> field_simp <;> ring
  · have h3 := (h2.const_mul c).const_mul ((b - a) / 2)
    rw [mul_left_comm, integral_transport w f hab] at h3
    refine h3.congr fun m => ?_
    rw [← mul_assoc c, mul_inv_cancel₀ hc.ne', one_mul]
    congr 1
    exact quad_congr fun q hq => hFx _ (hnode m q hq)

/-- C74 for both Gauss-Chebyshev rules: bounded integrands that are continuous at almost every point of the interval -/
theorem C74_chebyshev {a b : ℝ} (hab : a ≠ b) {f : ℝ → ℝ} {B : ℝ} (hB : ∀ t ∈ Set.uIcc a b, |f t| ≤ B) (hcont : ∀ᵐ t, t ∈ Set.uIcc a b → ContinuousAt f t) :
    (IntervalIntegrable (fun t => f t * (1 / Real.sqrt (1 - ((2 * t - a - b) / (b - a)) ^ 2))) volume a b ∧
      Tendsto (fun n => (AnyRule.chebyshevFirst ⟨pairs1 n⟩).value a b f) atTop
        (nhds (∫ t in a..b, f t * (1 / Real.sqrt (1 - ((2 * t - a - b) / (b - a)) ^ 2))))) ∧
    (IntervalIntegrable (fun t => f t * Real.sqrt (1 - ((2 * t - a - b) / (b - a)) ^ 2)) volume a b ∧
      Tendsto (fun n => (AnyRule.chebyshevSecond ⟨pairs2 n⟩).value a b f) atTop
        (nhds (∫ t in a..b, f t * Real.sqrt (1 - ((2 * t - a - b) / (b - a)) ^ 2)))) := by
  have z1 : pairs1 0 = [] := List.eq_nil_of_length_eq_zero (by simp [pairs1, length_rangeRev])
  have z2 : pairs2 0 = [] := List.eq_nil_of_length_eq_zero (by simp [pairs2, length_rangeRev])
  have hd : Tendsto (fun n : ℕ => 2 * n - 1) atTop atTop :=
    tendsto_atTop_mono (fun n => by omega : ∀ n : ℕ, n - 1 ≤ 2 * n - 1) (tendsto_sub_atTop_nat 1)
  have p1 : ∀ m, ∀ q ∈ pairs1 m, 0 ≤ q.2 := fun m q hq => by
    rcases Nat.eq_zero_or_pos m with rfl | hm
    · rw [z1] at hq; simp at hq
    · exact (gauss_weights_pos one_pos (exact1 hm) posDef_cheb1 q hq).le
  have p2 : ∀ m, ∀ q ∈ pairs2 m, 0 ≤ q.2 := fun m q hq => by
    rcases Nat.eq_zero_or_pos m with rfl | hm
    · rw [z2] at hq; simp at hq
    · exact (gauss_weights_pos one_pos (exact2 hm) posDef_cheb2 q hq).le
  have n1 : ∀ m, ∀ q ∈ pairs1 m, -1 < q.1 ∧ q.1 < 1 := fun m q hq => by
    rcases Nat.eq_zero_or_pos m with rfl | hm
    · rw [z1] at hq; simp at hq
    · exact nodes1 hm q hq
  have n2 : ∀ m, ∀ q ∈ pairs2 m, -1 < q.1 ∧ q.1 < 1 := fun m q hq => by
    rcases Nat.eq_zero_or_pos m with rfl | hm
    · rw [z2] at hq; simp at hq
    · exact nodes2 hm q hq
  have i1 : IntegrableOn chebW1 (Set.Ioo (-1) 1) := by simpa using integrableOn_cheb1 1
  have i2 : IntegrableOn chebW2 (Set.Ioo (-1) 1) := by simpa using integrableOn_cheb2 1
  have c1 : ∀ g : ℝ → ℝ, Continuous g → Tendsto (fun m => quad (pairs1 m) g) atTop (𝓝 (1 * ∫ x in Set.Ioo (-1 : ℝ) 1, g x * chebW1 x)) := fun g hg => by
    rw [one_mul]
    exact gauss_tendsto _ hd (by filter_upwards [eventually_gt_atTop 0] with n hn using cheb1_exact hn) (Eventually.of_forall p1)
      (Eventually.of_forall fun m q hq => ⟨(n1 m q hq).1.le, (n1 m q hq).2.le⟩) chebW1_nonneg i1 hg.continuousOn
  have c2 : ∀ g : ℝ → ℝ, Continuous g → Tendsto (fun m => quad (pairs2 m) g) atTop (𝓝 (1 * ∫ x in Set.Ioo (-1 : ℝ) 1, g x * chebW2 x)) := fun g hg => by
    rw [one_mul]
    exact gauss_tendsto _ hd (by filter_upwards [eventually_gt_atTop 0] with n hn using cheb2_exact hn) (Eventually.of_forall p2)
      (Eventually.of_forall fun m q hq => ⟨(n2 m q hq).1.le, (n2 m q hq).2.le⟩) chebW2_nonneg i2 hg.continuousOn
  have h1 := interval_riemann p1 n1 chebW1_meas chebW1_nonneg i1 one_pos c1 hab hB hcont
  have h2 := interval_riemann p2 n2 chebW2_meas chebW2_nonneg i2 one_pos c2 hab hB hcont
  rw [one_mul] at h1 h2
  exact ⟨⟨h1.1, h1.2.congr fun n => by rw [value_gauss_quad rfl]⟩, ⟨h2.1, h2.2.congr fun n => by rw [value_gauss_quad rfl]⟩⟩

/-- C74 for the general branch of Gauss-Jacobi (every degree, the overwritten middle node of the odd ones included) -/
theorem C74_jacobi {ext : Externals ℝ} (hext : ExactSolver ext) {α β : FiniteAboveNegOne ℝ} (hα : -1 < α.get) (hβ : -1 < β.get)
    (hs : α.get + β.get ≠ -1) (r : ℕ → JacobiRule ℝ) (hr : ∀ m, GaussJacobi.newGeneral ext (m + 1) α β = some (r m)) {a b : ℝ}
    (hab : a ≠ b) {f : ℝ → ℝ} {B : ℝ} (hB : ∀ t ∈ Set.uIcc a b, |f t| ≤ B) (hcont : ∀ᵐ t, t ∈ Set.uIcc a b → ContinuousAt f t) :
    IntervalIntegrable (fun t => f t * ((1 - (2 * t - a - b) / (b - a)) ^ α.get * (1 + (2 * t - a - b) / (b - a)) ^ β.get)) volume a b ∧
    Tendsto (fun m => (AnyRule.jacobi (r m)).value a b f) atTop
      (nhds (jacobiFactor α.get β.get *
        ∫ t in a..b, f t * ((1 - (2 * t - a - b) / (b - a)) ^ α.get * (1 + (2 * t - a - b) / (b - a)) ^ β.get))) := by
  have hst : ∀ m, ∀ p ∈ (r m).nodeWeightPairs, 0 < p.2 ∧ -1 < p.1 ∧ p.1 < 1 := fun m => by
    obtain ⟨r', h1, h2, -⟩ := jacobi_stored hext (Nat.succ_pos m) hα hβ hs
    rw [Nat.succ_eq_add_one, hr m, Option.some.injEq] at h1
    rw [h1]; exact h2
  have hwi : IntegrableOn (jacW α.get β.get) (Set.Ioo (-1) 1) := by simpa using integrable_jacobi hα hβ 1
  have hconv : ∀ g : ℝ → ℝ, Continuous g → Tendsto (fun m => quad (r m).nodeWeightPairs g) atTop
      (𝓝 (jacobiFactor α.get β.get * ∫ x in Set.Ioo (-1 : ℝ) 1, g x * jacW α.get β.get x)) := fun g hg => by
    have h := C41_jacobi hext hα hβ hs r hr (a := -1) (b := 1) (by norm_num) hg.continuousOn
    have e := integral_transport (jacW α.get β.get) g (a := -1) (b := 1) (by norm_num)
    simp only [jacW] at e
    rw [← e] at h
    have e2 : ∀ x : ℝ, (1 - -1) / 2 * x + (-1 + 1) / 2 = x := fun x => by ring
    simp only [e2] at h
    rw [show ((1 : ℝ) - -1) / 2 = 1 by norm_num, one_mul] at h
    refine h.congr fun m => ?_
    rw [value_gauss_quad rfl]
    simp only [e2]
    rw [show ((1 : ℝ) - -1) / 2 = 1 by norm_num, one_mul]
  have h := interval_riemann (fun m q hq => (hst m q hq).1.le) (fun m q hq => (hst m q hq).2) (jacW_meas α.get β.get) (jacW_nonneg α.get β.get) hwi (jacobiFactor_pos hα hβ hs) hconv hab hB hcont
  exact ⟨h.1, h.2.congr fun m => by rw [value_gauss_quad rfl]⟩

/-! ### Newton-Cotes -/

theorem compositeMidpoint_congr {n : ℕ} {a b : ℝ} (hab : a ≤ b) {f g : ℝ → ℝ} (h : ∀ x ∈ Set.Icc a b, f x ≤ g x) :
    compositeMidpoint n a b f ≤ compositeMidpoint n a b g ∧ compositeTrapezoid n a b f ≤ compositeTrapezoid n a b g ∧ compositeSimpson n a b f ≤ compositeSimpson n a b g := by
  rcases Nat.eq_zero_or_pos n with rfl | hn
  · simp [compositeMidpoint, compositeTrapezoid, compositeSimpson]
  have hn' : (0 : ℝ) < n := by exact_mod_cast hn
  have hh : 0 ≤ (b - a) / n := div_nonneg (by linarith) hn'.le
  have en : a + (n : ℝ) * ((b - a) / n) = b := by rw [mul_div_cancel₀ _ hn'.ne']; ring
  have geo : ∀ t : ℝ, 0 ≤ t → t ≤ n → a + t * ((b - a) / n) ∈ Set.Icc a b := fun t ht0 ht1 => by
    constructor
    · nlinarith [mul_nonneg ht0 hh]
    · have := mul_nonneg (sub_nonneg.2 ht1) hh
      linarith
  have hi : ∀ i ∈ Finset.range n, (i : ℝ) + 1 ≤ n ∧ (0 : ℝ) ≤ i := fun i hi => ⟨by exact_mod_cast Finset.mem_range.1 hi, Nat.cast_nonneg i⟩
  refine ⟨mul_le_mul_of_nonneg_left (Finset.sum_le_sum fun i hi' => ?_) hh, mul_le_mul_of_nonneg_left (Finset.sum_le_sum fun i hi' => ?_) hh, Finset.sum_le_sum fun i hi' => ?_⟩
  · exact h _ (geo _ (by linarith [(hi i hi').2]) (by linarith [(hi i hi').1]))
  · have h1 := h _ (geo i (by linarith [(hi i hi').2]) (by linarith [(hi i hi').1]))
    have h2 := h _ (geo (i + 1) (by linarith [(hi i hi').2]) (by linarith [(hi i hi').1]))
    linarith
  · have h1 := h _ (geo i (by linarith [(hi i hi').2]) (by linarith [(hi i hi').1]))
    have h2 := h _ (geo (i + 1) (by linarith [(hi i hi').2]) (by linarith [(hi i hi').1]))
    have h3 := h _ (geo (i + 1 / 2) (by linarith [(hi i hi').2]) (by linarith [(hi i hi').1]))
    exact mul_le_mul_of_nonneg_left (by linarith) (by positivity)

theorem composite_riemann_up {a b : ℝ} (hab : a ≤ b) {f : ℝ → ℝ} {B : ℝ} (hB : ∀ t ∈ Set.Icc a b, |f t| ≤ B) (hcont : ∀ᵐ t, t ∈ Set.Icc a b → ContinuousAt f t) :
    IntervalIntegrable f volume a b ∧
    Tendsto (fun n => compositeMidpoint n a b f) atTop (nhds (∫ x in a..b, f x)) ∧
    Tendsto (fun n => compositeTrapezoid n a b f) atTop (nhds (∫ x in a..b, f x)) ∧
    Tendsto (fun n => compositeSimpson n a b f) atTop (nhds (∫ x in a..b, f x)) := by
  set F : ℝ → ℝ := (Set.Icc a b).indicator f with hF
  have hB0 : 0 ≤ B := (abs_nonneg _).trans (hB a ⟨le_rfl, hab⟩)
  have hFx : ∀ x ∈ Set.Icc a b, F x = f x := fun x hx => Set.indicator_of_mem hx f
  have hFB : ∀ x, |F x| ≤ B * 1 := fun x => by
    rw [mul_one]
    by_cases hx : x ∈ Set.Icc a b
    · rw [hFx x hx]; exact hB x hx
    · rw [hF, Set.indicator_of_notMem hx, abs_zero]; exact hB0
  have hFc : ∀ᵐ x ∂(volume.restrict (Set.Ioo a b)), ContinuousAt F x := by
    rw [ae_restrict_iff' measurableSet_Ioo]
    filter_upwards [hcont] with x hx h0
    exact (hx ⟨h0.1.le, h0.2.le⟩).congr (by filter_upwards [Ioo_mem_nhds h0.1 h0.2] with y hy using (hFx y ⟨hy.1.le, hy.2.le⟩).symm)
  have hint : ∀ g : ℝ → ℝ, ∫ x in a..b, g x = ∫ x in Set.Ioo a b, g x := fun g => by
    rw [intervalIntegral.integral_of_le hab, integral_Ioc_eq_integral_Ioo]
  have key : ∀ Q : ℕ → (ℝ → ℝ) → ℝ, (∀ m (f g : ℝ → ℝ), (∀ x ∈ Set.Icc a b, f x ≤ g x) → Q m f ≤ Q m g) →
      (∀ g, Continuous g → Tendsto (fun m => Q m g) atTop (𝓝 (∫ x in a..b, g x))) →
      IntervalIntegrable f volume a b ∧ Tendsto (fun m => Q m f) atTop (𝓝 (∫ x in a..b, f x)) := by
    intro Q hmono hQ
    have h := tendsto_ae_continuous (ν := volume.restrict (Set.Ioo a b)) (Q := Q) (fun m f g hfg => hmono m f g fun x _ => hfg x)
      (φ := fun _ => 1) (by fun_prop) (fun _ => one_pos) (integrable_const _) (C := B) (fun g hg _ => by rw [← hint]; exact hQ g hg) hFB hFc
    constructor
    · rw [intervalIntegrable_iff_integrableOn_Ioo_of_le hab]
      exact IntegrableOn.congr_fun h.1 (fun x hx => hFx x ⟨hx.1.le, hx.2.le⟩) measurableSet_Ioo
    · have h2 := h.2
      rw [setIntegral_congr_fun measurableSet_Ioo (fun x hx => hFx x ⟨hx.1.le, hx.2.le⟩), ← hint] at h2
      refine h2.congr fun m => ?_
      exact le_antisymm (hmono m _ _ fun x hx => (hFx x hx).le) (hmono m _ _ fun x hx => (hFx x hx).ge)
  have h1 := key (fun n g => compositeMidpoint n a b g) (fun m f g h => (compositeMidpoint_congr hab h).1) (fun g hg => (C29_convergence hg.continuousOn).1)
  have h2 := key (fun n g => compositeTrapezoid n a b g) (fun m f g h => (compositeMidpoint_congr hab h).2.1) (fun g hg => (C29_convergence hg.continuousOn).2.1)
  have h3 := key (fun n g => compositeSimpson n a b g) (fun m f g h => (compositeMidpoint_congr hab h).2.2) (fun g hg => (C29_convergence hg.continuousOn).2.2)
  exact ⟨h1.1, h1.2, h2.2, h3.2⟩

/-- C74 for the Newton-Cotes rules (`C29_formula`: the sums are what the crate's loops compute): bounded integrands that are continuous at almost every point of the interval -/
theorem C74_newton_cotes {a b : ℝ} {f : ℝ → ℝ} {B : ℝ} (hB : ∀ t ∈ Set.uIcc a b, |f t| ≤ B) (hcont : ∀ᵐ t, t ∈ Set.uIcc a b → ContinuousAt f t) :
    IntervalIntegrable f volume a b ∧
    Tendsto (fun n => compositeMidpoint n a b f) atTop (nhds (∫ x in a..b, f x)) ∧
    Tendsto (fun n => compositeTrapezoid n a b f) atTop (nhds (∫ x in a..b, f x)) ∧
    Tendsto (fun n => compositeSimpson n a b f) atTop (nhds (∫ x in a..b, f x)) := by
  rcases le_total a b with hab | hab
  · rw [Set.uIcc_of_le hab] at hB hcont
    exact composite_riemann_up hab hB hcont
  · rw [Set.uIcc_of_ge hab] at hB hcont
    obtain ⟨h0, h1, h2, h3⟩ := composite_riemann_up hab hB hcont
    rw [intervalIntegral.integral_symm]
    refine ⟨h0.symm, h1.neg.congr' ?_, h2.neg.congr' ?_, h3.neg.congr' ?_⟩ <;> filter_upwards [eventually_gt_atTop 0] with n hn
    · exact (composite_swap hn b a f).1.symm
    · exact (composite_swap hn b a f).2.1.symm
    · exact (composite_swap hn b a f).2.2.symm

/-! ### Examples: the unit step at 1/3, which is discontinuous -/

theorem step_ae : ∀ᵐ x : ℝ, ContinuousAt step x := by
  have := step_mono.countable_not_continuousAt.measure_zero volume
  rw [ae_iff]; exact this

theorem step_abs (x : ℝ) : |step x| ≤ 1 := by
  have := step_range x
  rw [abs_of_nonneg this.1]; exact this.2

example : ∃ ext : Externals ℝ, ExactSolver ext ∧ ∃ r : ℕ → Rule ℝ, (∀ m, GaussHermite.new ext (m + 1) = some (r m)) ∧
    Tendsto (fun m => (AnyRule.hermite (r m)).value 0 0 step) atTop (nhds (∫ x, step x * Real.exp (-x ^ 2))) := by
  refine ⟨_, exactSolver_exists, ?_⟩
  choose r hr _ using fun m : ℕ => hermite_gauss exactSolver_exists (Nat.succ_pos m)
  exact ⟨r, hr, (C74_hermite exactSolver_exists r hr step_ae (C := 1) (s := 0) one_pos (fun x => by simpa using step_abs x) 0 0).2⟩

example : ∃ ext : Externals ℝ, ExactSolver ext ∧ ∃ r : ℕ → LaguerreRule ℝ, (∀ m, GaussLaguerre.new ext (m + 1) ⟨-1 / 2⟩ = some (r m)) ∧ ∃ c : ℝ, |c - 1| ≤ 2e-12 ∧
    Tendsto (fun m => (AnyRule.laguerre (r m)).value 0 0 step) atTop (nhds (c * ∫ x in Set.Ioi 0, step x * (x ^ (-1 / 2 : ℝ) * Real.exp (-x)))) := by
  refine ⟨_, exactSolver_exists, ?_⟩
  choose r hr _ _ using fun m : ℕ => laguerre_gauss exactSolver_exists (Nat.succ_pos m) ⟨-1 / 2⟩ (by norm_num)
  obtain ⟨c, hc, h⟩ := C74_laguerre exactSolver_exists (α := ⟨-1 / 2⟩) (by norm_num) r hr
  exact ⟨r, hr, c, hc, (h step 1 0 0 0 (step_ae.mono fun _ h _ => h) one_pos fun x _ => by simpa using step_abs x).2⟩

example : ∃ ext : Externals ℝ, ExactSolver ext ∧ ∃ r : ℕ → JacobiRule ℝ, (∀ m, GaussJacobi.newGeneral ext (m + 1) ⟨1⟩ ⟨0⟩ = some (r m)) ∧
    Tendsto (fun m => (AnyRule.jacobi (r m)).value (-1) 2 step) atTop
      (nhds (jacobiFactor 1 0 * ∫ t in (-1 : ℝ)..2, step t * ((1 - (2 * t - -1 - 2) / (2 - -1)) ^ (1 : ℝ) * (1 + (2 * t - -1 - 2) / (2 - -1)) ^ (0 : ℝ)))) := by
  refine ⟨_, exactSolver_exists, ?_⟩
  choose r hr _ using fun m : ℕ => jacobi_newGeneral_some (Externals.real spectralEig) (Nat.succ_pos m) (⟨1⟩ : FiniteAboveNegOne ℝ) ⟨0⟩
  exact ⟨r, hr, (C74_jacobi exactSolver_exists (α := ⟨1⟩) (β := ⟨0⟩) (by norm_num) (by norm_num) (by norm_num) r hr (by norm_num) (B := 1)
    (fun x _ => step_abs x) (step_ae.mono fun _ h _ => h)).2⟩

example : Tendsto (fun n => (AnyRule.chebyshevFirst ⟨pairs1 n⟩).value (-1) 1 step) atTop
    (nhds (∫ t in (-1 : ℝ)..1, step t * (1 / Real.sqrt (1 - ((2 * t - -1 - 1) / (1 - -1)) ^ 2)))) :=
  (C74_chebyshev (by norm_num) (B := 1) (fun x _ => step_abs x) (step_ae.mono fun _ h _ => h)).1.2

example : Tendsto (fun n => compositeSimpson n 0 1 step) atTop (nhds (∫ x in (0 : ℝ)..1, step x)) :=
  (C74_newton_cotes (B := 1) (fun x _ => step_abs x) (step_ae.mono fun _ h _ => h)).2.2.2

end GaussQuad.Props
