import Verif.Proofs.Periodic
import Verif.Proofs.RealRuleLemmas
import Verif.Props.NewtonCotesF64
import Mathlib.Analysis.SpecialFunctions.Integrals.Basic
import Mathlib.Analysis.SpecialFunctions.Trigonometric.DerivHyp

/-!
# C83: the equidistant rules on periodic integrands

Over a full period, `Midpoint`, `Trapezoid` and `Simpson` (`/repo/src/midpoint/mod.rs` l.76-88, `/repo/src/trapezoid/mod.rs` l.74-85, `/repo/src/simpson/mod.rs` l.68-97)
are exact for trigonometric polynomials of degree less than `n` and converge geometrically for integrands that are analytic in a strip around the real line.
-/

set_option exponentiation.threshold 3000

namespace GaussQuad.Props
open Spec FloatOps MeasureTheory Periodic

/-- a trigonometric polynomial of degree less than `n` with period `T` -/
noncomputable def trigPoly (T : ℝ) (n : ℕ) (α β : ℕ → ℝ) (x : ℝ) : ℝ :=
  ∑ k ∈ Finset.range n, (α k * Real.cos (2 * Real.pi * k * x / T) + β k * Real.sin (2 * Real.pi * k * x / T))

theorem trig_sums {T : ℝ} (hT : T ≠ 0) {n k : ℕ} (hk : 0 < k) (hkn : k < n) (x₀ : ℝ) :
    ∑ i ∈ Finset.range n, Real.cos (2 * Real.pi * k * (x₀ + i * (T / n)) / T) = 0 ∧
    ∑ i ∈ Finset.range n, Real.sin (2 * Real.pi * k * (x₀ + i * (T / n)) / T) = 0 := by
  have h := root_sum (n := n) (by omega) (k : ℤ)
  rw [if_neg (by intro h; have := Int.le_of_dvd (by omega) h; omega)] at h
  have h2 : ∑ i ∈ Finset.range n, Complex.exp ((2 * Real.pi * k * (x₀ + i * (T / n)) / T : ℝ) * Complex.I) = 0 := by
    have : ∀ i : ℕ, Complex.exp ((2 * Real.pi * k * (x₀ + i * (T / n)) / T : ℝ) * Complex.I) =
        Complex.exp ((2 * Real.pi * k * x₀ / T : ℝ) * Complex.I) * Complex.exp (2 * Real.pi * Complex.I * (k : ℤ) * i / n) := by
      intro i
      rw [← Complex.exp_add]
      congr 1
      have : (T : ℂ) ≠ 0 := by exact_mod_cast hT
      have : (n : ℂ) ≠ 0 := by exact_mod_cast (show n ≠ 0 by omega)
      push_cast
      field_simp
    simp_rw [this]
    rw [← Finset.mul_sum, h, mul_zero]
  constructor
  · have := congrArg Complex.re h2
    simpa only [Complex.re_sum, Complex.exp_ofReal_mul_I_re, Complex.zero_re] using this
  · have := congrArg Complex.im h2
    simpa only [Complex.im_sum, Complex.exp_ofReal_mul_I_im, Complex.zero_im] using this

theorem trig_integrals {a b : ℝ} (hab : a ≠ b) {k : ℕ} (hk : 0 < k) :
    (∫ x in a..b, Real.cos (2 * Real.pi * k * x / (b - a))) = 0 ∧ (∫ x in a..b, Real.sin (2 * Real.pi * k * x / (b - a))) = 0 := by
  have hT : b - a ≠ 0 := sub_ne_zero.2 hab.symm
  have hk' : (k : ℝ) ≠ 0 := by exact_mod_cast hk.ne'
  have hc : 2 * Real.pi * k / (b - a) ≠ 0 := by have := Real.pi_ne_zero; positivity
  have e : ∀ x : ℝ, 2 * Real.pi * k * x / (b - a) = 2 * Real.pi * k / (b - a) * x := fun x => by ring
  have hb : 2 * Real.pi * k / (b - a) * b = 2 * Real.pi * k / (b - a) * a + k * (2 * Real.pi) := by field_simp; ring
  simp_rw [e]
  rw [intervalIntegral.integral_comp_mul_left (fun x => Real.cos x) hc, intervalIntegral.integral_comp_mul_left (fun x => Real.sin x) hc, integral_cos, integral_sin, hb,
    Real.sin_add_nat_mul_two_pi, Real.cos_add_nat_mul_two_pi]
  simp

/-- every equidistant sum over the period is exact -/
theorem trig_shift {a b : ℝ} (hab : a ≠ b) {n : ℕ} (hn : 0 < n) (α β : ℕ → ℝ) (s : ℝ) :
    (b - a) / n * ∑ i ∈ Finset.range n, trigPoly (b - a) n α β (a + (i + s) * ((b - a) / n)) = ∫ x in a..b, trigPoly (b - a) n α β x := by
  have hn' : (n : ℝ) ≠ 0 := by exact_mod_cast hn.ne'
  have hint : (∫ x in a..b, trigPoly (b - a) n α β x) = (b - a) * α 0 := by
    unfold trigPoly
    rw [intervalIntegral.integral_finsetSum fun k _ => Continuous.intervalIntegrable (by fun_prop) _ _]
    rw [Finset.sum_eq_single 0]
    · simp
    · intro k _ hk
      have h := trig_integrals hab (Nat.pos_of_ne_zero hk)
      rw [intervalIntegral.integral_add (Continuous.intervalIntegrable (by fun_prop) _ _) (Continuous.intervalIntegrable (by fun_prop) _ _),
        intervalIntegral.integral_const_mul, intervalIntegral.integral_const_mul, h.1, h.2]
      simp
    · intro h; simp at h; omega
  have hsum : ∑ i ∈ Finset.range n, trigPoly (b - a) n α β (a + (i + s) * ((b - a) / n)) = n * α 0 := by
    unfold trigPoly
    rw [Finset.sum_comm, Finset.sum_eq_single 0]
    · simp
    · intro k hk hk0
      have h := trig_sums (sub_ne_zero.2 hab.symm) (Nat.pos_of_ne_zero hk0) (Finset.mem_range.1 hk) (a + s * ((b - a) / n))
      rw [Finset.sum_add_distrib, ← Finset.mul_sum, ← Finset.mul_sum]
      have e : ∀ i : ℕ, a + s * ((b - a) / n) + i * ((b - a) / n) = a + (i + s) * ((b - a) / n) := fun i => by ring
      simp_rw [e] at h
      rw [h.1, h.2]; simp
    · intro h; simp at h; omega
  rw [hint, hsum]
  field_simp

/-- a bound for every equidistant sum is a bound for the three rules -/
theorem rules_of_shift (r : NodeRule) {a b E I : ℝ} {g : ℝ → ℝ}
    (h : ∀ s : ℝ, |(b - a) / r.degree * ∑ i ∈ Finset.range r.degree, g (a + (i + s) * ((b - a) / r.degree)) - I| ≤ E) :
    |(AnyRule.midpoint r).value a b g - I| ≤ E ∧ |(AnyRule.trapezoid r).value a b g - I| ≤ E ∧ |(AnyRule.simpson r).value a b g - I| ≤ E := by
  have h1 : |(AnyRule.midpoint r).value a b g - I| ≤ E := by rw [value_midpoint]; exact h (1 / 2)
  have h2 : |(AnyRule.trapezoid r).value a b g - I| ≤ E := by
    rw [value_trapezoid, ← Finset.sum_div, Finset.sum_add_distrib]
    have e0 := abs_le.1 (h 0)
    have e1 := abs_le.1 (h 1)
    simp only [add_zero] at e0
    rw [abs_le]
    constructor <;> linarith [e0.1, e0.2, e1.1, e1.2]
  refine ⟨h1, h2, ?_⟩
  rw [value_simpson]
  rw [abs_le] at *
  constructor <;> linarith [h1.1, h1.2, h2.1, h2.2]

/-- C83: exactness for trigonometric polynomials of degree less than the number of panels -/
theorem C83_trigonometric (r : NodeRule) {a b : ℝ} (hab : a ≠ b) (α β : ℕ → ℝ) :
    (AnyRule.midpoint r).value a b (trigPoly (b - a) r.degree α β) = ∫ x in a..b, trigPoly (b - a) r.degree α β x ∧
    (AnyRule.trapezoid r).value a b (trigPoly (b - a) r.degree α β) = ∫ x in a..b, trigPoly (b - a) r.degree α β x ∧
    (AnyRule.simpson r).value a b (trigPoly (b - a) r.degree α β) = ∫ x in a..b, trigPoly (b - a) r.degree α β x := by
  have h := rules_of_shift r (E := 0) fun s => by rw [trig_shift hab r.pos α β s, sub_self, abs_zero]
  simp only [abs_nonpos_iff, sub_eq_zero] at h
  exact h

/-- C83: degree `n` is not integrated exactly: a cosine with as many periods as panels looks constant -/
theorem C83_trigonometric_sharp (r : NodeRule) {a b : ℝ} (hab : a ≠ b) :
    (∫ x in a..b, Real.cos (2 * Real.pi * r.degree * (x - a) / (b - a))) = 0 ∧
    (AnyRule.midpoint r).value a b (fun x => Real.cos (2 * Real.pi * r.degree * (x - a) / (b - a))) = -(b - a) ∧
    (AnyRule.trapezoid r).value a b (fun x => Real.cos (2 * Real.pi * r.degree * (x - a) / (b - a))) = b - a ∧
    (AnyRule.simpson r).value a b (fun x => Real.cos (2 * Real.pi * r.degree * (x - a) / (b - a))) = -(b - a) / 3 := by
  have hn : (r.degree : ℝ) ≠ 0 := by exact_mod_cast r.pos.ne'
  have hT : b - a ≠ 0 := sub_ne_zero.2 hab.symm
  have hm : (AnyRule.midpoint r).value a b (fun x => Real.cos (2 * Real.pi * r.degree * (x - a) / (b - a))) = -(b - a) := by
    rw [value_midpoint, Finset.sum_congr rfl (g := fun _ => (-1 : ℝ)) fun i _ => ?_]
    · simp; field_simp; ring
    · rw [show 2 * Real.pi * r.degree * (a + ((i : ℝ) + 1 / 2) * ((b - a) / r.degree) - a) / (b - a) = Real.pi + i * (2 * Real.pi) by field_simp; ring,
        Real.cos_add_nat_mul_two_pi, Real.cos_pi]
  have ht : (AnyRule.trapezoid r).value a b (fun x => Real.cos (2 * Real.pi * r.degree * (x - a) / (b - a))) = b - a := by
    rw [value_trapezoid, Finset.sum_congr rfl (g := fun _ => (1 : ℝ)) fun i _ => ?_]
    · simp; field_simp
    · rw [show 2 * Real.pi * r.degree * (a + (i : ℝ) * ((b - a) / r.degree) - a) / (b - a) = (i : ℕ) * (2 * Real.pi) by field_simp; ring,
        show 2 * Real.pi * r.degree * (a + ((i : ℝ) + 1) * ((b - a) / r.degree) - a) / (b - a) = ((i + 1 : ℕ) : ℝ) * (2 * Real.pi) by push_cast; field_simp; ring,
        Real.cos_nat_mul_two_pi, Real.cos_nat_mul_two_pi]
      norm_num
  refine ⟨?_, hm, ht, ?_⟩
  · have h := intervalIntegral.integral_comp_sub_right (a := a) (b := b) (fun x => Real.cos (2 * Real.pi * r.degree * x / (b - a))) a
    rw [h, sub_self]
    have := (trig_integrals (a := 0) (b := b - a) hT.symm r.pos).1
    rwa [sub_zero] at this
  · rw [value_simpson, hm, ht]; ring

/-- C83: geometric convergence for a periodic integrand that is analytic and bounded by `M` in the strip of half-width `σ` -/
theorem C83_strip (r : NodeRule) {a b σ M : ℝ} (hab : a < b) (hσ : 0 < σ) {g : ℝ → ℝ} (hper : Function.Periodic g (b - a)) (hg : AnalyticStrip g σ M) :
    IntervalIntegrable g volume a b ∧
    |(AnyRule.midpoint r).value a b g - ∫ x in a..b, g x| ≤ 2 * (b - a) * M / (Real.exp (2 * Real.pi * σ * r.degree / (b - a)) - 1) ∧
    |(AnyRule.trapezoid r).value a b g - ∫ x in a..b, g x| ≤ 2 * (b - a) * M / (Real.exp (2 * Real.pi * σ * r.degree / (b - a)) - 1) ∧
    |(AnyRule.simpson r).value a b g - ∫ x in a..b, g x| ≤ 2 * (b - a) * M / (Real.exp (2 * Real.pi * σ * r.degree / (b - a)) - 1) :=
  ⟨(strip_error hσ hab hg hper r.pos 0).1, rules_of_shift r fun s => (strip_error hσ hab hg hper r.pos s).2⟩

/-- `e^(cos x)` over [0, 2π] meets the hypotheses with `σ = 1`, `M = e^(cosh 1)`: the trapezoid rule with `n` panels is off by at most
`4π e^(cosh 1) / (e^n - 1)` -/
example (r : NodeRule) : |(AnyRule.trapezoid r).value 0 (2 * Real.pi) (fun x => Real.exp (Real.cos x)) - ∫ x in (0 : ℝ)..2 * Real.pi, Real.exp (Real.cos x)| ≤
    4 * Real.pi * Real.exp (Real.cosh 1) / (Real.exp r.degree - 1) := by
  have hg : AnalyticStrip (fun x => Real.exp (Real.cos x)) 1 (Real.exp (Real.cosh 1)) := by
    refine ⟨fun z => Complex.exp (Complex.cos z), (Complex.differentiable_exp.comp Complex.differentiable_cos).differentiableOn, fun z hz => ?_, fun x => by push_cast; rfl⟩
    rw [Complex.norm_exp, Real.exp_le_exp]
    have h1 : (Complex.cos z).re = Real.cos z.re * Real.cosh z.im := by
      conv_lhs => rw [← Complex.re_add_im z, Complex.cos_add_mul_I, ← Complex.ofReal_cos, ← Complex.ofReal_cosh, ← Complex.ofReal_sin, ← Complex.ofReal_sinh]
      simp [-Complex.ofReal_cos, -Complex.ofReal_sin, -Complex.ofReal_cosh, -Complex.ofReal_sinh]
    rw [h1]
    have h2 : Real.cosh z.im ≤ Real.cosh 1 := by rw [Real.cosh_le_cosh, abs_one]; exact hz.le
    have h3 := Real.cos_le_one z.re
    have h4 := Real.cosh_pos z.im
    nlinarith
  have h := (C83_strip r (a := 0) (b := 2 * Real.pi) Real.two_pi_pos one_pos (g := fun x => Real.exp (Real.cos x))
    (fun x => by simp only [sub_zero, Real.cos_add_two_pi]) hg).2.2.1
  rw [sub_zero, show 2 * Real.pi * 1 * (r.degree : ℝ) / (2 * Real.pi) = r.degree by have := Real.pi_ne_zero; field_simp, show 2 * (2 * Real.pi) = 4 * Real.pi by ring] at h
  exact h

/-- 1 + cos x + sin 2x over [0, 2π]: three panels suffice -/
example : (AnyRule.trapezoid ⟨3, by norm_num, by norm_num⟩).value 0 (2 * Real.pi) (fun x => 1 + Real.cos x + Real.sin (2 * x)) = 2 * Real.pi ∧
    (AnyRule.midpoint ⟨3, by norm_num, by norm_num⟩).value 0 (2 * Real.pi) (fun x => 1 + Real.cos x + Real.sin (2 * x)) = 2 * Real.pi := by
  have hpi := Real.pi_ne_zero
  have e : trigPoly (2 * Real.pi - 0) 3 (fun k => if k ≤ 1 then 1 else 0) (fun k => if k = 2 then 1 else 0) = fun x => 1 + Real.cos x + Real.sin (2 * x) := by
    funext x
    simp only [trigPoly, Finset.sum_range_succ, Finset.sum_range_zero]
    rw [show 2 * Real.pi * (1 : ℕ) * x / (2 * Real.pi - 0) = x by push_cast; field_simp; ring,
      show 2 * Real.pi * (2 : ℕ) * x / (2 * Real.pi - 0) = 2 * x by push_cast; field_simp; ring]
    simp
  have h := C83_trigonometric ⟨3, by norm_num, by norm_num⟩ (a := 0) (b := 2 * Real.pi) (by positivity) (fun k => if k ≤ 1 then 1 else 0) (fun k => if k = 2 then 1 else 0)
  simp only [e] at h
  have hi : (∫ x in (0 : ℝ)..2 * Real.pi, (1 + Real.cos x + Real.sin (2 * x))) = 2 * Real.pi := by
    rw [intervalIntegral.integral_add (Continuous.intervalIntegrable (by fun_prop) _ _) (Continuous.intervalIntegrable (by fun_prop) _ _),
      intervalIntegral.integral_add (Continuous.intervalIntegrable (by fun_prop) _ _) (Continuous.intervalIntegrable (by fun_prop) _ _),
      integral_cos, intervalIntegral.integral_comp_mul_left (fun x => Real.sin x) two_ne_zero, integral_sin]
    simp [show (2 : ℝ) * (2 * Real.pi) = (2 : ℕ) * (2 * Real.pi) by norm_num, Real.cos_nat_mul_two_pi]
  rw [hi] at h
  exact ⟨h.2.1, h.1⟩

open F64 in
/-- C83 in binary64: on a period with representable ends the computed results differ from the integral by the rounding error of C58 and a term
that falls geometrically with the number of panels -/
theorem C83_strip_binary64 [L : Libm] (r : NodeRule) (a b : F64) (f : F64 → F64) (g : ℝ → ℝ) (B M N Λ η σ : ℝ) (ha : a.isFinite = true) (hb : b.isFinite = true)
    (haB : |(a.val : ℝ)| ≤ B) (hbB : |(b.val : ℝ)| ≤ B) (hB : B ≤ 2 ^ 400) (hab : (a.val : ℝ) < b.val) (hσ : 0 < σ)
    (hper : Function.Periodic g ((b.val : ℝ) - a.val)) (hg : AnalyticStrip g σ N) :
    let ρ := 4 / 10 ^ 15 * B + 1 / 2 ^ 1000; let κ := η + Λ * ρ
    let E := fun d : ℕ => ((b.val : ℝ) - a.val) * (1.01 * κ + (1.2 / 10 ^ 15 + 1.2 / 10 ^ 16 * d) * (M + κ)) + 1 / 2 ^ 500
    let T := 2 * ((b.val : ℝ) - a.val) * N / (Real.exp (2 * Real.pi * σ * r.degree / ((b.val : ℝ) - a.val)) - 1)
    Computes f g (around a.val b.val ρ) M Λ η → 0 ≤ Λ → 0 ≤ M + κ → M + κ ≤ 2 ^ 400 →
    (((AnyRule.midpoint r).value a b f).isFinite = true ∧ |(((AnyRule.midpoint r).value a b f).val : ℝ) - ∫ x in (a.val : ℝ)..b.val, g x| ≤ E r.degree + T) ∧
    (((AnyRule.trapezoid r).value a b f).isFinite = true ∧ |(((AnyRule.trapezoid r).value a b f).val : ℝ) - ∫ x in (a.val : ℝ)..b.val, g x| ≤ E (r.degree - 1) + T) ∧
    (((AnyRule.simpson r).value a b f).isFinite = true ∧ |(((AnyRule.simpson r).value a b f).val : ℝ) - ∫ x in (a.val : ℝ)..b.val, g x| ≤ E (r.degree - 1) + T) := by
  intro ρ κ E T hf hΛ hK0 hK
  obtain ⟨-, hm, ht, hs⟩ := C83_strip r hab hσ hper hg
  obtain ⟨⟨m1, m2⟩, -, -⟩ := C58_midpoint r a b f g B M Λ η ha hb haB hbB hB hf hΛ hK
  obtain ⟨⟨t1, t2⟩, -, -⟩ := C58_trapezoid r a b f g B M Λ η ha hb haB hbB hB hf hΛ hK
  obtain ⟨⟨s1, s2⟩, -, -⟩ := C58_simpson r a b f g B M Λ η ha hb haB hbB hB hf hΛ hK
  rw [value_simpson] at hs
  rw [value_midpoint] at hm hs
  rw [value_trapezoid] at ht hs
  rw [abs_of_pos (sub_pos.2 hab)] at m2 t2 s2
  have hlen : 0 ≤ (b.val : ℝ) - a.val := (sub_pos.2 hab).le
  refine ⟨⟨m1, ?_⟩, ⟨t1, ?_⟩, s1, ?_⟩
  · refine (abs_sub_le _ _ _).trans (add_le_add (m2.trans ?_) hm)
    have hc : (5 / 10 ^ 16 : ℝ) ≤ 1.2 / 10 ^ 15 := by norm_num
    simp only [E]
    gcongr
  · refine (abs_sub_le _ _ _).trans (add_le_add (t2.trans ?_) ht)
    have hc : (9 / 10 ^ 16 : ℝ) ≤ 1.2 / 10 ^ 15 := by norm_num
    simp only [E]
    gcongr
  · refine (abs_sub_le _ _ _).trans (add_le_add s2 (le_trans (le_of_eq ?_) hs))
    congr 2
    simp only [Finset.mul_sum, ← Finset.sum_add_distrib, Finset.sum_div]
    exact Finset.sum_congr rfl fun i _ => by ring

/-- the hypotheses of C83 hold for cos 2πx on [0, 1] with `σ = 1`, `N = e^(2π)`: for every program that computes it within 10⁻¹⁵, the trapezoid rule with 10 panels is
off by at most 10⁻¹³ plus the geometric term -/
example [L : Libm] (f : F64 → F64) (hf : ∀ y : F64, y.isFinite = true → (f y).isFinite = true ∧ |((f y).val : ℝ) - Real.cos (2 * Real.pi * y.val)| ≤ 1 / 10 ^ 15) :
    ((AnyRule.trapezoid ⟨10, by norm_num, by norm_num⟩).value (F64.zero false) (lit 1.0) f).isFinite = true ∧
    |(((AnyRule.trapezoid ⟨10, by norm_num, by norm_num⟩).value (F64.zero false) (lit 1.0) f).val : ℝ) - ∫ x in (0 : ℝ)..1, Real.cos (2 * Real.pi * x)| ≤
      1 / 10 ^ 13 + 2 * Real.exp (2 * Real.pi) / (Real.exp (20 * Real.pi) - 1) := by
  have h1 : (((lit 1.0 : F64)).val : ℝ) = 1 := by rw [(F64.lit_one_isNat (L := L)).2]; norm_num
  have h0 : ((F64.zero false).val : ℝ) = 0 := by rw [F64.val_zero]; simp
  have hpi := Real.pi_pos
  have hpi' := Real.pi_lt_d2
  have hg : AnalyticStrip (fun x => Real.cos (2 * Real.pi * x)) 1 (Real.exp (2 * Real.pi)) := by
    refine ⟨fun z => Complex.cos (2 * Real.pi * z), (Complex.differentiable_cos.comp (by fun_prop)).differentiableOn, fun z hz => ?_, fun x => by push_cast; rfl⟩
    obtain ⟨z1, z2⟩ := abs_lt.1 hz
    show ‖(Complex.exp (2 * Real.pi * z * Complex.I) + Complex.exp (-(2 * Real.pi * z) * Complex.I)) / 2‖ ≤ _
    rw [norm_div, Complex.norm_ofNat]
    have e1 : ‖Complex.exp (2 * Real.pi * z * Complex.I)‖ ≤ Real.exp (2 * Real.pi) := by
      rw [Complex.norm_exp, Real.exp_le_exp]; simp; nlinarith
    have e2 : ‖Complex.exp (-(2 * Real.pi * z) * Complex.I)‖ ≤ Real.exp (2 * Real.pi) := by
      rw [Complex.norm_exp, Real.exp_le_exp]; simp; nlinarith
    have := norm_add_le (Complex.exp (2 * Real.pi * z * Complex.I)) (Complex.exp (-(2 * Real.pi * z) * Complex.I))
    linarith
  have h := (C83_strip_binary64 ⟨10, by norm_num, by norm_num⟩ (F64.zero false) (lit 1.0) f (fun x => Real.cos (2 * Real.pi * x)) 1 1 (Real.exp (2 * Real.pi)) 7 (1 / 10 ^ 15) 1
    (F64.zero_isFinite false) (F64.lit_one_isNat (L := L)).1 (by rw [h0]; norm_num) (by rw [h1]; norm_num) (by norm_num) (by rw [h0, h1]; norm_num) one_pos
    (by rw [h0, h1]; intro x; simp only [sub_zero, mul_add, mul_one, Real.cos_add_two_pi]) hg
    ⟨fun t _ => Real.abs_cos_le_one _, fun s _ t _ => ?_, fun y hy _ => hf y hy⟩ (by norm_num) (by norm_num) (by norm_num)).2.1
  · rw [h0, h1] at h
    refine ⟨h.1, h.2.trans (add_le_add (by norm_num) (le_of_eq ?_))⟩
    norm_num
    congr 3
    ring
  · have e : |Real.cos (2 * Real.pi * s) - Real.cos (2 * Real.pi * t)| ≤ |2 * Real.pi * s - 2 * Real.pi * t| := by
      have := Real.lipschitzWith_cos.dist_le_mul (2 * Real.pi * s) (2 * Real.pi * t)
      simpa [Real.dist_eq] using this
    refine e.trans ?_
    rw [← mul_sub, abs_mul, abs_of_pos (by positivity : 0 < 2 * Real.pi)]
    gcongr
    linarith

/-- three panels on [0, 1] see `cos 6πx` as a constant -/
example : (AnyRule.trapezoid ⟨3, by norm_num, by norm_num⟩).value 0 1 (fun x : ℝ => Real.cos (6 * Real.pi * x)) = 1 := by
  have h := (C83_trigonometric_sharp ⟨3, by norm_num, by norm_num⟩ (a := 0) (b := 1) (by norm_num)).2.2.1
  rw [sub_zero] at h
  rw [← h]
  congr 1; funext x; congr 1; push_cast; ring

end GaussQuad.Props
