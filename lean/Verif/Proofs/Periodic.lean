import Verif.Spec.Analytic
import Mathlib.Analysis.Fourier.AddCircle
import Mathlib.Analysis.Complex.CauchyIntegral
import Mathlib.Analysis.Analytic.Uniqueness
import Mathlib.Analysis.Convex.Topology
import Mathlib.Analysis.SpecificLimits.Basic
import Mathlib.Tactic

/-!
Equidistant sums of periodic functions: aliasing, and the geometric rate for functions analytic in a strip.
-/

namespace GaussQuad.Periodic
open Complex MeasureTheory Set Filter Topology Spec

/-- the sum of the `n`-th roots of unity to the power `k` -/
theorem root_sum {n : ℕ} (hn : 0 < n) (k : ℤ) :
    ∑ i ∈ Finset.range n, cexp (2 * Real.pi * I * k * i / n) = if (n : ℤ) ∣ k then (n : ℂ) else 0 := by
  have hn' : (n : ℂ) ≠ 0 := by exact_mod_cast hn.ne'
  have hpow : ∀ i : ℕ, cexp (2 * Real.pi * I * k * i / n) = cexp (2 * Real.pi * I * k / n) ^ i := by
    intro i
    rw [← Complex.exp_nat_mul]
    congr 1
    ring
  simp_rw [hpow]
  have hone : cexp (2 * Real.pi * I * k / n) ^ n = 1 := by
    rw [← Complex.exp_nat_mul, Complex.exp_eq_one_iff]
    exact ⟨k, by field_simp⟩
  have hiff : cexp (2 * Real.pi * I * k / n) = 1 ↔ (n : ℤ) ∣ k := by
    rw [Complex.exp_eq_one_iff]
    have hpi : (Real.pi : ℂ) ≠ 0 := by exact_mod_cast Real.pi_ne_zero
    constructor
    · rintro ⟨m, hm⟩
      refine ⟨m, ?_⟩
      have : (k : ℂ) = n * m := by
        have h2 := I_ne_zero
        field_simp at hm
        linear_combination hm
      exact_mod_cast this
    · rintro ⟨m, rfl⟩
      refine ⟨m, ?_⟩
      push_cast
      field_simp
  split_ifs with h
  · rw [hiff.2 h]; simp
  · have := mul_geom_sum (cexp (2 * Real.pi * I * k / n)) n
    rw [hone, sub_self] at this
    exact (mul_eq_zero.1 this).resolve_left (sub_ne_zero.2 fun h' => h (hiff.1 h'))

section
variable {T : ℝ} [hT : Fact (0 < T)]

/-- aliasing -/
theorem aliasing (f : C(AddCircle T, ℂ)) (hs : Summable (fourierCoeff f)) {n : ℕ} (hn : 0 < n) (x₀ : ℝ) :
    HasSum (fun m : ℤ => n * (fourierCoeff f (m * n) * fourier (m * n) (x₀ : AddCircle T)))
      (∑ i ∈ Finset.range n, f ((x₀ + i * (T / n) : ℝ) : AddCircle T)) := by
  have hn' : (n : ℝ) ≠ 0 := by exact_mod_cast hn.ne'
  have h1 : HasSum (fun k : ℤ => ∑ i ∈ Finset.range n, fourierCoeff f k • fourier k ((x₀ + i * (T / n) : ℝ) : AddCircle T))
      (∑ i ∈ Finset.range n, f ((x₀ + i * (T / n) : ℝ) : AddCircle T)) :=
    hasSum_sum fun i _ => has_pointwise_sum_fourier_series_of_summable hs _
  have h2 : ∀ k : ℤ, ∑ i ∈ Finset.range n, fourierCoeff f k • fourier k ((x₀ + i * (T / n) : ℝ) : AddCircle T) =
      fourierCoeff f k * fourier k (x₀ : AddCircle T) * if (n : ℤ) ∣ k then (n : ℂ) else 0 := by
    intro k
    rw [← root_sum hn k, Finset.mul_sum]
    refine Finset.sum_congr rfl fun i _ => ?_
    rw [smul_eq_mul, mul_assoc, fourier_coe_apply, fourier_coe_apply, ← Complex.exp_add]
    congr 2
    have : (T : ℂ) ≠ 0 := by exact_mod_cast hT.out.ne'
    have : (n : ℂ) ≠ 0 := by exact_mod_cast hn.ne'
    push_cast
    field_simp
  simp_rw [h2] at h1
  have hinj : Function.Injective (fun m : ℤ => m * n) := fun m m' h => by
    have : (n : ℤ) ≠ 0 := by omega
    exact mul_right_cancel₀ this h
  have h3 := (hinj.hasSum_iff (f := fun k : ℤ => fourierCoeff f k * fourier k (x₀ : AddCircle T) * if (n : ℤ) ∣ k then (n : ℂ) else 0) (by
    intro k hk
    rw [if_neg, mul_zero]
    rintro ⟨m, rfl⟩
    exact hk ⟨m, by ring⟩)).2 h1
  convert! h3 using 2 with m
  simp only [Function.comp, dvd_mul_left, if_true]
  ring

/-- the error of an equidistant sum, from bounds on the coefficients -/
theorem sum_error (f : C(AddCircle T, ℂ)) {K q : ℝ} (hq0 : 0 ≤ q) (hq1 : q < 1) (hc : ∀ k : ℤ, ‖fourierCoeff f k‖ ≤ K * q ^ k.natAbs)
    {n : ℕ} (hn : 0 < n) (x₀ : ℝ) :
    ‖(T / n : ℝ) * ∑ i ∈ Finset.range n, f ((x₀ + i * (T / n) : ℝ) : AddCircle T) - T * fourierCoeff f 0‖ ≤ 2 * T * K * q ^ n / (1 - q ^ n) := by
  have hT0 : 0 < T := hT.out
  have hn' : (n : ℂ) ≠ 0 := by exact_mod_cast hn.ne'
  have hqn0 : 0 ≤ q ^ n := by positivity
  have hqn1 : q ^ n < 1 := pow_lt_one₀ hq0 hq1 hn.ne'
  have hs : Summable (fourierCoeff f) := by
    refine Summable.of_norm_bounded (g := fun k : ℤ => K * q ^ k.natAbs) ?_ hc
    have hgeo := (summable_geometric_of_lt_one hq0 hq1).mul_left K
    apply Summable.of_nat_of_neg <;> simpa using hgeo
  set u : ℤ → ℂ := fun m => T * (fourierCoeff f (m * n) * fourier (m * n) (x₀ : AddCircle T)) with hu
  have h1 : HasSum u ((T / n : ℝ) * ∑ i ∈ Finset.range n, f ((x₀ + i * (T / n) : ℝ) : AddCircle T)) := by
    have := (aliasing f hs hn x₀).mul_left ((T / n : ℝ) : ℂ)
    convert! this using 2 with m
    rw [hu]
    push_cast
    field_simp
  have hu0 : u 0 = T * fourierCoeff f 0 := by simp [hu]
  have hub : ∀ m : ℤ, ‖u m‖ ≤ T * K * (q ^ n) ^ m.natAbs := by
    intro m
    have hf1 : ‖(fourier (m * n) (x₀ : AddCircle T) : ℂ)‖ = 1 := by
      rw [fourier_apply]; exact Circle.norm_coe _
    rw [hu]
    simp only [norm_mul, Complex.norm_real, Real.norm_eq_abs, abs_of_pos hT0, hf1, mul_one]
    have := hc (m * n)
    rw [Int.natAbs_mul, Int.natAbs_natCast, mul_comm _ n, pow_mul] at this
    rw [mul_assoc]
    exact mul_le_mul_of_nonneg_left this hT0.le
  have h2 := (hasSum_nat_add_iff' 1).2 h1.nat_add_neg
  have h3 : HasSum (fun j : ℕ => 2 * T * K * (q ^ n) ^ (j + 1)) (2 * T * K * q ^ n / (1 - q ^ n)) := by
    have := (hasSum_geometric_of_lt_one hqn0 hqn1).mul_left (2 * T * K * q ^ n)
    convert! this using 1
    funext j; rw [pow_succ]; ring
  have h4 := tsum_of_norm_bounded h3 (f := fun j : ℕ => u ((j + 1 : ℕ) : ℤ) + u (-((j + 1 : ℕ) : ℤ))) (fun j => by
    have e1 := hub ((j + 1 : ℕ) : ℤ)
    have e2 := hub (-((j + 1 : ℕ) : ℤ))
    rw [Int.natAbs_natCast] at e1
    rw [Int.natAbs_neg, Int.natAbs_natCast] at e2
    refine (norm_add_le _ _).trans ?_
    linarith)
  rw [h2.tsum_eq] at h4
  simp only [Finset.sum_range_one, Nat.cast_zero, neg_zero, hu0] at h4
  convert! h4 using 2
  ring
end

/-! ## functions analytic in a strip -/

section
variable {g : ℝ → ℝ} {σ M T : ℝ}

theorem isOpen_strip (σ : ℝ) : IsOpen {z : ℂ | |z.im| < σ} := isOpen_lt (by fun_prop) continuous_const

/-- the extension is periodic, too -/
theorem extension_periodic {f : ℂ → ℂ} (hσ : 0 < σ) (hf : DifferentiableOn ℂ f {z | |z.im| < σ}) (hfg : ∀ x : ℝ, f x = (g x : ℝ))
    (hper : Function.Periodic g T) : ∀ z : ℂ, |z.im| < σ → f (z + T) = f z := by
  have h1 : AnalyticOnNhd ℂ f {z | |z.im| < σ} := hf.analyticOnNhd (isOpen_strip σ)
  have h2 : AnalyticOnNhd ℂ (fun z => f (z + T)) {z | |z.im| < σ} := by
    refine DifferentiableOn.analyticOnNhd ?_ (isOpen_strip σ)
    refine hf.comp (by fun_prop) fun z hz => ?_
    simpa using hz
  have hconv : Convex ℝ {z : ℂ | |z.im| < σ} := by
    have : {z : ℂ | |z.im| < σ} = Complex.imLm ⁻¹' (Ioo (-σ) σ) := by
      ext z; simp [abs_lt]
    rw [this]
    exact (convex_Ioo _ _).linear_preimage _
  have hfreq : ∃ᶠ z in 𝓝[≠] (0 : ℂ), f (z + T) = f z := by
    have ht : Tendsto (fun x : ℝ => (x : ℂ)) (𝓝[≠] 0) (𝓝[≠] 0) := by
      refine tendsto_nhdsWithin_iff.2 ⟨?_, ?_⟩
      · have := (Complex.continuous_ofReal.tendsto (0 : ℝ)).mono_left (nhdsWithin_le_nhds (s := {0}ᶜ))
        simpa using this
      · filter_upwards [self_mem_nhdsWithin] with x hx
        simpa using hx
    refine ht.frequently (Eventually.frequently (Eventually.of_forall fun x => ?_))
    rw [← Complex.ofReal_add, hfg, hfg, hper x]
  have := h2.eqOn_of_preconnected_of_frequently_eq h1 hconv.isPreconnected (z₀ := 0) (by simpa using hσ) hfreq
  exact fun z hz => this hz

theorem continuous_of_strip {f : ℂ → ℂ} (hσ : 0 < σ) (hf : DifferentiableOn ℂ f {z | |z.im| < σ}) : Continuous fun x : ℝ => f x :=
  hf.continuousOn.comp_continuous Complex.continuous_ofReal fun x => by simpa using hσ

variable [hT : Fact (0 < T)]

omit hT in
theorem periodic_restrict {f : ℂ → ℂ} (hfg : ∀ x : ℝ, f x = (g x : ℝ)) (hper : Function.Periodic g T) : Function.Periodic (fun x : ℝ => f x) T :=
  fun x => by simp only [hfg, hper x]

/-- the function on the circle -/
noncomputable def onCircle {f : ℂ → ℂ} (hσ : 0 < σ) (hf : DifferentiableOn ℂ f {z | |z.im| < σ}) (hfg : ∀ x : ℝ, f x = (g x : ℝ)) (hper : Function.Periodic g T) :
    C(AddCircle T, ℂ) where
  toFun := (periodic_restrict hfg hper).lift
  continuous_toFun := isQuotientMap_quotient_mk'.continuous_iff.2 (continuous_of_strip hσ hf)

theorem coeff_strip {f : ℂ → ℂ} (hσ : 0 < σ) (hf : DifferentiableOn ℂ f {z | |z.im| < σ}) (hM : ∀ z : ℂ, |z.im| < σ → ‖f z‖ ≤ M)
    (hfg : ∀ x : ℝ, f x = (g x : ℝ)) (hper : Function.Periodic g T) (k : ℤ) {s : ℝ} (hs : |s| < σ) :
    ‖fourierCoeff (onCircle hσ hf hfg hper) k‖ ≤ M * Real.exp (2 * Real.pi * k * s / T) := by
  have hT0 : 0 < T := hT.out
  have hTc : (T : ℂ) ≠ 0 := by exact_mod_cast hT0.ne'
  set Φ : ℂ → ℂ := fun z => cexp (-(2 * Real.pi * I * k * z / T)) * f z with hΦ
  have hΦd : DifferentiableOn ℂ Φ {z | |z.im| < σ} := by
    refine DifferentiableOn.mul ?_ hf
    exact (by fun_prop : Differentiable ℂ fun z : ℂ => cexp (-(2 * Real.pi * I * k * z / T))).differentiableOn
  have hΦp : ∀ z : ℂ, |z.im| < σ → Φ (z + T) = Φ z := by
    intro z hz
    simp only [hΦ]
    rw [extension_periodic hσ hf hfg hper z hz]
    congr 1
    rw [show -(2 * Real.pi * I * k * (z + T) / T) = -(2 * Real.pi * I * k * z / T) + ((-k : ℤ) : ℂ) * (2 * Real.pi * I) by
      push_cast; field_simp; ring, Complex.exp_add, Complex.exp_int_mul_two_pi_mul_I, mul_one]
  have hrect := Complex.integral_boundary_rect_eq_zero_of_differentiableOn Φ (0 : ℂ) ((T : ℂ) + s * I) (hΦd.mono (by
    intro z hz
    rw [Complex.mem_reProdIm] at hz
    have h2 := hz.2
    simp only [Complex.zero_im, Complex.add_im, Complex.ofReal_im, Complex.mul_im, Complex.ofReal_re, Complex.I_im, Complex.I_re, mul_one, mul_zero, add_zero, zero_add] at h2
    show |z.im| < σ
    rw [Set.mem_uIcc] at h2
    rw [abs_lt] at hs ⊢
    rcases h2 with h2 | h2 <;> constructor <;> linarith [h2.1, h2.2, hs.1, hs.2]))
  simp only [Complex.zero_im, Complex.zero_re, Complex.add_im, Complex.add_re, Complex.ofReal_im, Complex.ofReal_re, Complex.mul_im, Complex.mul_re, Complex.I_im, Complex.I_re,
    mul_one, mul_zero, add_zero, zero_add, sub_zero, zero_mul, Complex.ofReal_zero] at hrect
  have hside : (∫ y : ℝ in (0 : ℝ)..s, Φ (T + y * I)) = ∫ y : ℝ in (0 : ℝ)..s, Φ (y * I) := by
    refine intervalIntegral.integral_congr fun y hy => ?_
    have hy' : |((y : ℂ) * I).im| < σ := by
      simp only [Complex.mul_im, Complex.ofReal_re, Complex.I_im, mul_one, Complex.ofReal_im, Complex.I_re, mul_zero, add_zero]
      rw [Set.mem_uIcc] at hy
      rw [abs_lt] at hs ⊢
      rcases hy with h2 | h2 <;> constructor <;> linarith [h2.1, h2.2, hs.1, hs.2]
    have := hΦp _ hy'
    rw [add_comm] at this
    exact this
  rw [hside] at hrect
  have hshift : (∫ x : ℝ in (0 : ℝ)..T, Φ x) = ∫ x : ℝ in (0 : ℝ)..T, Φ (x + s * I) := by
    have : (∫ x : ℝ in (0 : ℝ)..T, Φ x) - (∫ x : ℝ in (0 : ℝ)..T, Φ (x + s * I)) = 0 := by linear_combination hrect
    exact sub_eq_zero.1 this
  rw [fourierCoeff_eq_intervalIntegral _ _ 0, zero_add]
  have hcongr : (∫ x in (0 : ℝ)..T, (fourier (-k) (x : AddCircle T) : ℂ) • (onCircle hσ hf hfg hper) (x : AddCircle T)) = ∫ x : ℝ in (0 : ℝ)..T, Φ x := by
    refine intervalIntegral.integral_congr fun x _ => ?_
    simp only [hΦ, smul_eq_mul]
    rw [fourier_coe_apply]
    congr 2
    push_cast
    ring
  rw [hcongr, hshift]
  have hb : ‖∫ x : ℝ in (0 : ℝ)..T, Φ (x + s * I)‖ ≤ (M * Real.exp (2 * Real.pi * k * s / T)) * |T - 0| := by
    refine intervalIntegral.norm_integral_le_of_norm_le_const fun x _ => ?_
    have him : ((x : ℂ) + s * I).im = s := by simp
    have h1 := hM (x + s * I) (by rw [him]; exact hs)
    simp only [hΦ, norm_mul, Complex.norm_exp]
    have h2 : (-(2 * Real.pi * I * k * (x + s * I) / T) : ℂ).re = 2 * Real.pi * k * s / T := by
      have : (-(2 * Real.pi * I * k * (x + s * I) / T) : ℂ) = ((2 * Real.pi * k * s / T : ℝ) : ℂ) + ((-(2 * Real.pi * k * x / T) : ℝ) : ℂ) * I := by
        push_cast
        field_simp
        ring_nf
        rw [Complex.I_sq]; ring
      rw [this]
      simp
    rw [h2, mul_comm]
    gcongr
  rw [norm_smul, sub_zero, abs_of_pos hT0] at *
  rw [Real.norm_eq_abs, abs_of_pos (by positivity)]
  calc 1 / T * ‖∫ x : ℝ in (0 : ℝ)..T, Φ (x + s * I)‖ ≤ 1 / T * (M * Real.exp (2 * Real.pi * k * s / T) * T) := by gcongr
    _ = _ := by field_simp

theorem coeff_strip_bound {f : ℂ → ℂ} (hσ : 0 < σ) (hf : DifferentiableOn ℂ f {z | |z.im| < σ}) (hM : ∀ z : ℂ, |z.im| < σ → ‖f z‖ ≤ M)
    (hfg : ∀ x : ℝ, f x = (g x : ℝ)) (hper : Function.Periodic g T) (k : ℤ) :
    ‖fourierCoeff (onCircle hσ hf hfg hper) k‖ ≤ M * Real.exp (-(2 * Real.pi * σ / T)) ^ k.natAbs := by
  rw [← Real.exp_nat_mul]
  rcases le_total 0 k with hk | hk
  · have hc : Tendsto (fun s : ℝ => M * Real.exp (2 * Real.pi * k * s / T)) (𝓝[>] (-σ)) (𝓝 (M * Real.exp (2 * Real.pi * k * (-σ) / T))) :=
      ((by fun_prop : Continuous fun s : ℝ => M * Real.exp (2 * Real.pi * k * s / T)).tendsto _).mono_left nhdsWithin_le_nhds
    have h := ge_of_tendsto hc (by
      filter_upwards [Ioo_mem_nhdsGT (show -σ < σ by linarith)] with s hs using coeff_strip hσ hf hM hfg hper k (abs_lt.2 hs))
    refine h.trans (le_of_eq ?_)
    have : ((k.natAbs : ℕ) : ℝ) = k := by
      have : (((k.natAbs : ℤ)) : ℝ) = k := by rw [Int.natAbs_of_nonneg hk]
      rw [← this]; simp
    rw [this]
    congr 2
    ring
  · have hc : Tendsto (fun s : ℝ => M * Real.exp (2 * Real.pi * k * s / T)) (𝓝[<] σ) (𝓝 (M * Real.exp (2 * Real.pi * k * σ / T))) :=
      ((by fun_prop : Continuous fun s : ℝ => M * Real.exp (2 * Real.pi * k * s / T)).tendsto _).mono_left nhdsWithin_le_nhds
    have h := ge_of_tendsto hc (by
      filter_upwards [Ioo_mem_nhdsLT (show -σ < σ by linarith)] with s hs using coeff_strip hσ hf hM hfg hper k (abs_lt.2 hs))
    refine h.trans (le_of_eq ?_)
    have : ((k.natAbs : ℕ) : ℝ) = -k := by
      have : (((k.natAbs : ℤ)) : ℝ) = ((-k : ℤ) : ℝ) := by rw [Int.ofNat_natAbs_of_nonpos hk]
      rw [← Int.cast_neg, ← this]; simp
    rw [this]
    congr 2
    ring

end

/-- the error of every equidistant sum over a period -/
theorem strip_error {g : ℝ → ℝ} {σ M a b : ℝ} (hσ : 0 < σ) (hab : a < b) (hg : AnalyticStrip g σ M) (hper : Function.Periodic g (b - a)) {n : ℕ} (hn : 0 < n) (s : ℝ) :
    IntervalIntegrable g volume a b ∧
    |(b - a) / n * ∑ i ∈ Finset.range n, g (a + (i + s) * ((b - a) / n)) - ∫ x in a..b, g x| ≤
      2 * (b - a) * M / (Real.exp (2 * Real.pi * σ * n / (b - a)) - 1) := by
  have hT0 : 0 < b - a := sub_pos.2 hab
  have : Fact (0 < b - a) := ⟨hT0⟩
  obtain ⟨f, h1, h2, h3⟩ := hg
  have hcont : Continuous g := by
    have := Complex.continuous_re.comp (continuous_of_strip hσ h1)
    convert! this using 1
    funext x; simp [h3]
  refine ⟨hcont.intervalIntegrable _ _, ?_⟩
  have hq1 : Real.exp (-(2 * Real.pi * σ / (b - a))) < 1 := by
    rw [Real.exp_lt_one_iff]; have := Real.pi_pos; simp only [Left.neg_neg_iff]; positivity
  have h4 := sum_error (onCircle hσ h1 h3 hper) (Real.exp_pos _).le hq1 (coeff_strip_bound hσ h1 h2 h3 hper) hn (a + s * ((b - a) / n))
  have h5 : ((b - a : ℝ) : ℂ) * fourierCoeff (onCircle hσ h1 h3 hper) 0 = ((∫ x in a..b, g x : ℝ) : ℂ) := by
    rw [fourierCoeff_eq_intervalIntegral _ _ a, add_sub_cancel, neg_zero]
    have : (∫ x in a..b, (fourier 0 (x : AddCircle (b - a)) : ℂ) • (onCircle hσ h1 h3 hper) (x : AddCircle (b - a))) = ∫ x in a..b, ((g x : ℝ) : ℂ) := by
      refine intervalIntegral.integral_congr fun x _ => ?_
      simp only [fourier_zero, one_smul]
      exact h3 x
    rw [this, intervalIntegral.integral_ofReal, Complex.real_smul]
    have : ((b - a : ℝ) : ℂ) ≠ 0 := by exact_mod_cast hT0.ne'
    push_cast at this ⊢
    field_simp
  have h6 : (((b - a) / n : ℝ) : ℂ) * ∑ i ∈ Finset.range n, (onCircle hσ h1 h3 hper) ((a + s * ((b - a) / n) + i * ((b - a) / n) : ℝ) : AddCircle (b - a)) =
      (((b - a) / n * ∑ i ∈ Finset.range n, g (a + (i + s) * ((b - a) / n)) : ℝ) : ℂ) := by
    rw [Complex.ofReal_mul, Complex.ofReal_sum]
    congr 1
    refine Finset.sum_congr rfl fun i _ => ?_
    rw [show a + s * ((b - a) / n) + i * ((b - a) / n) = a + (i + s) * ((b - a) / n) by ring]
    exact h3 _
  rw [h5, h6, ← Complex.ofReal_sub, Complex.norm_real, Real.norm_eq_abs] at h4
  refine h4.trans (le_of_eq ?_)
  rw [← Real.exp_nat_mul]
  have e : (n : ℝ) * -(2 * Real.pi * σ / (b - a)) = -(2 * Real.pi * σ * n / (b - a)) := by ring
  rw [e, Real.exp_neg]
  have : 1 < Real.exp (2 * Real.pi * σ * n / (b - a)) := by
    rw [Real.one_lt_exp_iff]; have := Real.pi_pos; have : (0 : ℝ) < n := by exact_mod_cast hn
    positivity
  have hne : Real.exp (2 * Real.pi * σ * n / (b - a)) - 1 ≠ 0 := by linarith
  generalize Real.exp (2 * Real.pi * σ * n / (b - a)) = y at *
  have hy : y ≠ 0 := by linarith
  have h1y : 1 - y⁻¹ = (y - 1) / y := by field_simp
  rw [h1y]
  field_simp

end GaussQuad.Periodic
