import Verif.Proofs.NewtonCotesError
import Verif.Props.RealAlgebra
import Mathlib.Analysis.Calculus.ContDiff.Basic
import Mathlib.Analysis.Calculus.IteratedDeriv.Lemmas
import Mathlib.Analysis.Calculus.Deriv.Polynomial
import Mathlib.Topology.UniformSpace.HeineCantor
import Mathlib.Topology.Algebra.Polynomial

/-!
# Midpoint, trapezoid and Simpson in exact arithmetic: C27, C28, C29 and their part of C23
-/

namespace GaussQuad.Props
open Polynomial Spec FloatOps Filter MeasureTheory intervalIntegral

/-! ## composite error bounds for `a ≤ b` -/

section
variable {a b : ℝ} {r : NodeRule}

theorem panel_geometry {n : ℕ} (hab : a ≤ b) {i : ℕ} (hi : i < n) :
    let h := (b - a) / n
    let m := a + (i + 1 / 2) * h
    0 ≤ h / 2 ∧ m - h / 2 = a + i * h ∧ m + h / 2 = a + (i + 1) * h ∧ a ≤ m - h / 2 ∧ m + h / 2 ≤ b := by
  intro h m
  have hn : (0 : ℝ) < n := by exact_mod_cast (by omega : 0 < n)
  have h0 : 0 ≤ h := div_nonneg (by linarith) hn.le
  have hmul : (n : ℝ) * h = b - a := mul_div_cancel₀ _ hn.ne'
  have hi' : (i : ℝ) + 1 ≤ n := by exact_mod_cast hi
  have hi0 : (0 : ℝ) ≤ i := Nat.cast_nonneg i
  refine ⟨by linarith, by simp only [m]; ring, by simp only [m]; ring, ?_, ?_⟩
  · simp only [m]; nlinarith
  · simp only [m]; nlinarith

theorem midpoint_error {f f₁ f₂ : ℝ → ℝ} {K : ℝ} (hab : a ≤ b) (h : DerivOn f f₁ a b) (h₁ : DerivOn f₁ f₂ a b)
    (hK : ∀ x ∈ Set.Ioo a b, |f₂ x| ≤ K) :
    |(∫ x in a..b, f x) - (AnyRule.midpoint r).value a b f| ≤ K * (b - a) ^ 3 / (24 * r.degree ^ 2) := by
  have hn : (0 : ℝ) < r.degree := by exact_mod_cast r.pos
  rw [value_midpoint, Finset.mul_sum]
  refine (composite_error hab h.cont r.pos (ε := K * ((b - a) / r.degree / 2) ^ 3 / 3) ?_).trans (le_of_eq ?_)
  · intro i hi
    obtain ⟨g0, g1, g2, g3, g4⟩ := panel_geometry (a := a) (b := b) hab hi
    have := midpoint_panel (m := a + (i + 1 / 2) * ((b - a) / r.degree)) g0 (h.mono g3 g4) (h₁.mono g3 g4)
      (fun x hx => hK x ⟨by linarith [hx.1], by linarith [hx.2]⟩)
    rw [g1, g2] at this
    convert this using 3
    ring
  · field_simp; ring

theorem trapezoid_error {f f₁ f₂ : ℝ → ℝ} {K : ℝ} (hab : a ≤ b) (h : DerivOn f f₁ a b) (h₁ : DerivOn f₁ f₂ a b)
    (hK : ∀ x ∈ Set.Ioo a b, |f₂ x| ≤ K) :
    |(∫ x in a..b, f x) - (AnyRule.trapezoid r).value a b f| ≤ K * (b - a) ^ 3 / (12 * r.degree ^ 2) := by
  have hn : (0 : ℝ) < r.degree := by exact_mod_cast r.pos
  rw [value_trapezoid, Finset.mul_sum]
  refine (composite_error hab h.cont r.pos (ε := 2 * K * ((b - a) / r.degree / 2) ^ 3 / 3) ?_).trans (le_of_eq ?_)
  · intro i hi
    obtain ⟨g0, g1, g2, g3, g4⟩ := panel_geometry (a := a) (b := b) hab hi
    have := trapezoid_panel (m := a + (i + 1 / 2) * ((b - a) / r.degree)) g0 (h.mono g3 g4) (h₁.mono g3 g4)
      (fun x hx => hK x ⟨by linarith [hx.1], by linarith [hx.2]⟩)
    rw [g1, g2] at this
    convert this using 3
    ring
  · field_simp; ring

theorem value_simpson_sum (r : NodeRule) (a b : ℝ) (f : ℝ → ℝ) :
    (AnyRule.simpson r).value a b f = ∑ i ∈ Finset.range r.degree, (b - a) / r.degree / 2 / 3 *
      (f (a + (i + 1) * ((b - a) / r.degree)) + 4 * f (a + (i + 1 / 2) * ((b - a) / r.degree)) +
        f (a + i * ((b - a) / r.degree))) := by
  rw [value_simpson, value_midpoint, value_trapezoid, ← Finset.mul_sum, Finset.sum_add_distrib, Finset.sum_add_distrib,
    ← Finset.mul_sum, ← Finset.sum_div, Finset.sum_add_distrib]
  ring

theorem simpson_error {f f₁ f₂ f₃ f₄ : ℝ → ℝ} {K : ℝ} (hab : a ≤ b) (h : DerivOn f f₁ a b) (h₁ : DerivOn f₁ f₂ a b)
    (h₂ : DerivOn f₂ f₃ a b) (h₃ : DerivOn f₃ f₄ a b) (hK : ∀ x ∈ Set.Ioo a b, |f₄ x| ≤ K) :
    |(∫ x in a..b, f x) - (AnyRule.simpson r).value a b f| ≤ K * (b - a) ^ 5 / (2880 * r.degree ^ 4) := by
  have hn : (0 : ℝ) < r.degree := by exact_mod_cast r.pos
  rw [value_simpson_sum]
  refine (composite_error hab h.cont r.pos (ε := K * ((b - a) / r.degree / 2) ^ 5 / 90) ?_).trans (le_of_eq ?_)
  · intro i hi
    obtain ⟨g0, g1, g2, g3, g4⟩ := panel_geometry (a := a) (b := b) hab hi
    have := simpson_panel (m := a + (i + 1 / 2) * ((b - a) / r.degree)) g0 (h.mono g3 g4) (h₁.mono g3 g4) (h₂.mono g3 g4)
      (h₃.mono g3 g4) (fun x hx => hK x ⟨by linarith [hx.1], by linarith [hx.2]⟩)
    rw [g1, g2] at this
    exact this
  · field_simp; ring

end

/-- successive derivatives of a `C^n` function -/
theorem derivOn_iterated {f : ℝ → ℝ} {a b : ℝ} (hab : a < b) {n k : ℕ} (hf : ContDiffOn ℝ n f (Set.Icc a b)) (hk : k < n) :
    DerivOn (iteratedDerivWithin k f (Set.Icc a b)) (iteratedDerivWithin (k + 1) f (Set.Icc a b)) a b := by
  have hu := uniqueDiffOn_Icc hab
  constructor
  · exact hf.continuousOn_iteratedDerivWithin (by exact_mod_cast hk.le) hu
  · intro x hx
    have h1 := hf.differentiableOn_iteratedDerivWithin (m := k) (by exact_mod_cast hk) hu x ⟨hx.1.le, hx.2.le⟩
    have h2 := h1.hasDerivWithinAt
    rw [← iteratedDerivWithin_succ] at h2
    exact h2.hasDerivAt (Icc_mem_nhds hx.1 hx.2)

/-- both orientations of the interval from one -/
theorem orient {P : ℝ → ℝ → Prop} (hsymm : ∀ a b, P a b → P b a) (h : ∀ a b, a < b → P a b) (heq : ∀ a, P a a) (a b : ℝ) : P a b := by
  rcases lt_trichotomy a b with h' | h' | h'
  · exact h a b h'
  · rw [h']; exact heq b
  · exact hsymm b a (h b a h')

theorem error_symm {R : AnyRule ℝ} {f : ℝ → ℝ} {a b : ℝ} (h : R.value b a f = -R.value a b f) :
    |(∫ x in b..a, f x) - R.value b a f| = |(∫ x in a..b, f x) - R.value a b f| := by
  rw [h, integral_symm, ← abs_neg]; congr 1; ring

/-! ## C27 -/

/-- C27, error bounds: for every `f` that is `C²` on the interval with `|f''| ≤ K` there, every degree and all bounds (in either
order), the error of the midpoint rule is at most `K|b-a|³/(24n²)` and that of the trapezoid rule at most `K|b-a|³/(12n²)`. -/
theorem C27_error {f : ℝ → ℝ} {a b K : ℝ} (hf : ContDiffOn ℝ 2 f (Set.uIcc a b))
    (hK : ∀ x ∈ Set.uIcc a b, |iteratedDerivWithin 2 f (Set.uIcc a b) x| ≤ K) (r : NodeRule) :
    |(∫ x in a..b, f x) - (AnyRule.midpoint r).value a b f| ≤ K * |b - a| ^ 3 / (24 * r.degree ^ 2) ∧
    |(∫ x in a..b, f x) - (AnyRule.trapezoid r).value a b f| ≤ K * |b - a| ^ 3 / (12 * r.degree ^ 2) := by
  revert hf hK
  refine orient (P := fun a b => ContDiffOn ℝ 2 f (Set.uIcc a b) →
      (∀ x ∈ Set.uIcc a b, |iteratedDerivWithin 2 f (Set.uIcc a b) x| ≤ K) → 
    |(∫ x in a..b, f x) - (AnyRule.midpoint r).value a b f| ≤ K * |b - a| ^ 3 / (24 * r.degree ^ 2) ∧
    |(∫ x in a..b, f x) - (AnyRule.trapezoid r).value a b f| ≤ K * |b - a| ^ 3 / (12 * r.degree ^ 2)) ?_ ?_ ?_ a b
  · intro a b h hf hK
    rw [Set.uIcc_comm] at hf hK
    have := h hf hK
    rw [error_symm (C20_newton_cotes r a b f).1, error_symm (C20_newton_cotes r a b f).2.1, abs_sub_comm a b]
    exact this
  · intro a b hab hf hK
    rw [Set.uIcc_of_lt hab] at hf hK
    have d0 := derivOn_iterated hab hf (k := 0) (by norm_num)
    have d1 := derivOn_iterated hab hf (k := 1) (by norm_num)
    rw [iteratedDerivWithin_zero] at d0
    rw [abs_of_pos (sub_pos.2 hab)]
    have hK' : ∀ x ∈ Set.Ioo a b, |iteratedDerivWithin 2 f (Set.Icc a b) x| ≤ K := fun x hx => hK x ⟨hx.1.le, hx.2.le⟩
    exact ⟨midpoint_error hab.le d0 d1 hK', trapezoid_error hab.le d0 d1 hK'⟩
  · intro a _ _
    rw [value_midpoint, value_trapezoid]
    simp

/-- `sin` on `[0, 3]`: the hypotheses hold with `K = 1` -/
example (r : NodeRule) : |(∫ x in (0 : ℝ)..3, Real.sin x) - (AnyRule.midpoint r).value 0 3 Real.sin| ≤
    1 * |(3 : ℝ) - 0| ^ 3 / (24 * r.degree ^ 2) := by
  refine (C27_error (Real.contDiff_sin.contDiffOn) ?_ r).1
  intro x hx
  have hu : UniqueDiffOn ℝ (Set.uIcc (0 : ℝ) 3) := uniqueDiffOn_uIcc (by norm_num)
  rw [iteratedDerivWithin_eq_iteratedDeriv hu (Real.contDiff_sin.contDiffAt) hx, iteratedDeriv_eq_iterate]
  simpa using Real.abs_sin_le_one x

theorem derivOn_poly (p : ℝ[X]) (a b : ℝ) : DerivOn (fun x => p.eval x) (fun x => p.derivative.eval x) a b :=
  ⟨p.continuous.continuousOn, fun x _ => p.hasDerivAt x⟩

/-- C27, exactness: every degree integrates every polynomial of degree at most 1 exactly. -/
theorem C27_exact (r : NodeRule) (a b : ℝ) {p : ℝ[X]} (hp : p.natDegree ≤ 1) :
    (AnyRule.midpoint r).value a b (fun x => p.eval x) = ∫ x in a..b, p.eval x ∧
    (AnyRule.trapezoid r).value a b (fun x => p.eval x) = ∫ x in a..b, p.eval x := by
  have hd : derivative (derivative p) = 0 := by
    have := iterate_derivative_eq_zero (p := p) (x := 2) (by omega)
    simpa using this
  refine orient (P := fun a b => (AnyRule.midpoint r).value a b (fun x => p.eval x) = ∫ x in a..b, p.eval x ∧
    (AnyRule.trapezoid r).value a b (fun x => p.eval x) = ∫ x in a..b, p.eval x) ?_ ?_ ?_ a b
  · intro a b h
    have hs := C20_newton_cotes r a b (fun x => p.eval x)
    rw [hs.1, hs.2.1, integral_symm, h.1, h.2]; simp
  · intro a b hab
    have h1 := midpoint_error (r := r) (K := 0) hab.le (derivOn_poly p a b) (derivOn_poly _ a b) (by simp [hd])
    have h2 := trapezoid_error (r := r) (K := 0) hab.le (derivOn_poly p a b) (derivOn_poly _ a b) (by simp [hd])
    rw [zero_mul, zero_div] at h1 h2
    exact ⟨by linarith [abs_nonpos_iff.1 h1], by linarith [abs_nonpos_iff.1 h2]⟩
  · intro a
    rw [value_midpoint, value_trapezoid]; simp

example : (AnyRule.midpoint ⟨3, by decide, by decide⟩).value 1 4 (fun x : ℝ => (X : ℝ[X]).eval x) = ∫ x in (1 : ℝ)..4, (X : ℝ[X]).eval x :=
  (C27_exact _ 1 4 natDegree_X_le).1

/-- C27: the constants 24 and 12 cannot be improved: `x²` (with `K = 2`) attains both bounds, for every degree and interval;
in particular degree 1 is the largest exactly integrated degree. -/
theorem C27_sharp (r : NodeRule) (a b : ℝ) :
    (∫ x in a..b, x ^ 2) - (AnyRule.midpoint r).value a b (fun x => x ^ 2) = 2 * (b - a) ^ 3 / (24 * r.degree ^ 2) ∧
    (AnyRule.trapezoid r).value a b (fun x => x ^ 2) - (∫ x in a..b, x ^ 2) = 2 * (b - a) ^ 3 / (12 * r.degree ^ 2) := by
  have hn : (0 : ℝ) < r.degree := by exact_mod_cast r.pos
  rw [value_midpoint, value_trapezoid, integral_pow]
  set h := (b - a) / r.degree with hh
  have hb : b = a + r.degree * h := by rw [hh, mul_div_cancel₀ _ hn.ne']; ring
  have key : ∀ n : ℕ, h * ∑ i ∈ Finset.range n, (a + ((i : ℝ) + 1 / 2) * h) ^ 2 =
      ((a + n * h) ^ 3 - a ^ 3) / 3 - n * (h ^ 3 / 12) := by
    intro n
    induction n with
    | zero => simp
    | succ n ih => rw [Finset.sum_range_succ, mul_add, ih]; push_cast; ring
  have key2 : ∀ n : ℕ, h * ∑ i ∈ Finset.range n, ((a + (i : ℝ) * h) ^ 2 + (a + ((i : ℝ) + 1) * h) ^ 2) / 2 =
      ((a + n * h) ^ 3 - a ^ 3) / 3 + n * (h ^ 3 / 6) := by
    intro n
    induction n with
    | zero => simp
    | succ n ih => rw [Finset.sum_range_succ, mul_add, ih]; push_cast; ring
  rw [key, key2, ← hb]
  have h3 : h ^ 3 = (b - a) ^ 3 / r.degree ^ 3 := by rw [hh, div_pow]
  rw [h3]
  constructor
  · field_simp; norm_num; ring
  · field_simp; norm_num; ring

/-- for `x ^ 2` on [0, 6] with three panels the two errors are 2 and 4 -/
example : (∫ x in (0 : ℝ)..6, x ^ 2) - (AnyRule.midpoint ⟨3, by decide, by decide⟩).value 0 6 (fun x => x ^ 2) = 2 ∧
    (AnyRule.trapezoid ⟨3, by decide, by decide⟩).value 0 6 (fun x => x ^ 2) - (∫ x in (0 : ℝ)..6, x ^ 2) = 4 := by
  obtain ⟨h1, h2⟩ := C27_sharp ⟨3, by decide, by decide⟩ 0 6
  rw [h1, h2]
  norm_num

/-! ## C28 -/

/-- C28, error bound: for every `f` that is `C⁴` on the interval with `|f''''| ≤ K` there, the error of Simpson's rule is at most
`K|b-a|⁵/(2880 n⁴)`. -/
theorem C28_error {f : ℝ → ℝ} {a b K : ℝ} (hf : ContDiffOn ℝ 4 f (Set.uIcc a b))
    (hK : ∀ x ∈ Set.uIcc a b, |iteratedDerivWithin 4 f (Set.uIcc a b) x| ≤ K) (r : NodeRule) :
    |(∫ x in a..b, f x) - (AnyRule.simpson r).value a b f| ≤ K * |b - a| ^ 5 / (2880 * r.degree ^ 4) := by
  revert hf hK
  refine orient (P := fun a b => ContDiffOn ℝ 4 f (Set.uIcc a b) →
      (∀ x ∈ Set.uIcc a b, |iteratedDerivWithin 4 f (Set.uIcc a b) x| ≤ K) →
    |(∫ x in a..b, f x) - (AnyRule.simpson r).value a b f| ≤ K * |b - a| ^ 5 / (2880 * r.degree ^ 4)) ?_ ?_ ?_ a b
  · intro a b h hf hK
    rw [Set.uIcc_comm] at hf hK
    rw [error_symm (C20_newton_cotes r a b f).2.2, abs_sub_comm a b]
    exact h hf hK
  · intro a b hab hf hK
    rw [Set.uIcc_of_lt hab] at hf hK
    have d0 := derivOn_iterated hab hf (k := 0) (by norm_num)
    have d1 := derivOn_iterated hab hf (k := 1) (by norm_num)
    have d2 := derivOn_iterated hab hf (k := 2) (by norm_num)
    have d3 := derivOn_iterated hab hf (k := 3) (by norm_num)
    rw [iteratedDerivWithin_zero] at d0
    rw [abs_of_pos (sub_pos.2 hab)]
    exact simpson_error hab.le d0 d1 d2 d3 fun x hx => hK x ⟨hx.1.le, hx.2.le⟩
  · intro a _ _
    rw [value_simpson_sum]
    simp

example (r : NodeRule) : |(∫ x in (0 : ℝ)..3, Real.sin x) - (AnyRule.simpson r).value 0 3 Real.sin| ≤
    1 * |(3 : ℝ) - 0| ^ 5 / (2880 * r.degree ^ 4) := by
  refine C28_error (Real.contDiff_sin.contDiffOn) ?_ r
  intro x hx
  have hu : UniqueDiffOn ℝ (Set.uIcc (0 : ℝ) 3) := uniqueDiffOn_uIcc (by norm_num)
  rw [iteratedDerivWithin_eq_iteratedDeriv hu (Real.contDiff_sin.contDiffAt) hx, iteratedDeriv_eq_iterate]
  have : deriv^[4] Real.sin = Real.sin := by
    simp [Function.iterate_succ, Real.deriv_sin]
  rw [this]
  exact Real.abs_sin_le_one x

/-- C28, exactness: Simpson's rule of every degree integrates every polynomial of degree at most 3 exactly. -/
theorem C28_exact (r : NodeRule) (a b : ℝ) {p : ℝ[X]} (hp : p.natDegree ≤ 3) :
    (AnyRule.simpson r).value a b (fun x => p.eval x) = ∫ x in a..b, p.eval x := by
  have hd : derivative (derivative (derivative (derivative p))) = 0 := by
    have := iterate_derivative_eq_zero (p := p) (x := 4) (by omega)
    simpa using this
  refine orient (P := fun a b => (AnyRule.simpson r).value a b (fun x => p.eval x) = ∫ x in a..b, p.eval x) ?_ ?_ ?_ a b
  · intro a b h
    rw [(C20_newton_cotes r a b (fun x => p.eval x)).2.2, integral_symm, h]
  · intro a b hab
    have h1 := simpson_error (r := r) (K := 0) hab.le (derivOn_poly p a b) (derivOn_poly _ a b) (derivOn_poly _ a b)
      (derivOn_poly _ a b) (by simp [hd])
    rw [zero_mul, zero_div] at h1
    linarith [abs_nonpos_iff.1 h1]
  · intro a
    rw [value_simpson_sum]; simp

example : (AnyRule.simpson ⟨1, by decide, by decide⟩).value (-1) 2 (fun x : ℝ => (X ^ 3 : ℝ[X]).eval x) = ∫ x in (-1 : ℝ)..2, (X ^ 3 : ℝ[X]).eval x :=
  C28_exact _ _ _ (natDegree_X_pow_le 3)

/-- C28: not exact at degree 4, and the constant 2880 cannot be improved: `x⁴` (with `K = 24`) attains the bound. -/
theorem C28_sharp (r : NodeRule) (a b : ℝ) :
    (AnyRule.simpson r).value a b (fun x => x ^ 4) - (∫ x in a..b, x ^ 4) = 24 * (b - a) ^ 5 / (2880 * r.degree ^ 4) := by
  have hn : (0 : ℝ) < r.degree := by exact_mod_cast r.pos
  rw [value_simpson_sum, integral_pow]
  set h := (b - a) / r.degree with hh
  have hb : b = a + r.degree * h := by rw [hh, mul_div_cancel₀ _ hn.ne']; ring
  have key : ∀ n : ℕ, ∑ i ∈ Finset.range n, h / 2 / 3 * ((a + ((i : ℝ) + 1) * h) ^ 4 + 4 * (a + ((i : ℝ) + 1 / 2) * h) ^ 4 +
      (a + (i : ℝ) * h) ^ 4) = ((a + n * h) ^ 5 - a ^ 5) / 5 + n * (h ^ 5 / 120) := by
    intro n
    induction n with
    | zero => simp
    | succ n ih => rw [Finset.sum_range_succ, ih]; push_cast; ring
  rw [key, ← hb]
  have h5 : h ^ 5 = (b - a) ^ 5 / r.degree ^ 5 := by rw [hh, div_pow]
  rw [h5]
  field_simp; norm_num; ring

example : (AnyRule.simpson ⟨1, by decide, by decide⟩).value 0 2 (fun x : ℝ => x ^ 4) - (∫ x in (0 : ℝ)..2, x ^ 4) = 4 / 15 := by
  rw [C28_sharp]
  norm_num

/-- so some polynomial of degree 4 is integrated incorrectly by every Simpson rule on every proper interval -/
theorem C28_not_exact_four (r : NodeRule) {a b : ℝ} (hab : a ≠ b) :
    ∃ p : ℝ[X], p.natDegree = 4 ∧ (AnyRule.simpson r).value a b (fun x => p.eval x) ≠ ∫ x in a..b, p.eval x := by
  refine ⟨X ^ 4, by simp, ?_⟩
  have hn : (0 : ℝ) < r.degree := by exact_mod_cast r.pos
  have h := C28_sharp r a b
  simp only [Polynomial.eval_pow, eval_X]
  intro hcon
  rw [hcon, sub_self] at h
  have : (b - a) ^ 5 ≠ 0 := pow_ne_zero _ (sub_ne_zero.2 hab.symm)
  exact (by positivity : 24 * (b - a) ^ 5 / (2880 * (r.degree : ℝ) ^ 4) ≠ 0) h.symm

example : ∃ p : ℝ[X], p.natDegree = 4 ∧ (AnyRule.simpson ⟨1000, by decide, by decide⟩).value 0 1 (fun x => p.eval x) ≠ ∫ x in (0 : ℝ)..1, p.eval x :=
  C28_not_exact_four _ zero_ne_one

/-! ## C29 -/

/-- error of one panel by the oscillation of the integrand -/
theorem panel_oscillation {f : ℝ → ℝ} {c d y ε : ℝ} (hcd : c ≤ d) (hf : ContinuousOn f (Set.Icc c d))
    (h : ∀ x ∈ Set.Icc c d, |f x - y| ≤ ε) : |(∫ x in c..d, f x) - (d - c) * y| ≤ ε * (d - c) := by
  have e : (d - c) * y = ∫ _ in c..d, y := by simp
  have hi : IntervalIntegrable f volume c d := by
    apply ContinuousOn.intervalIntegrable; rwa [Set.uIcc_of_le hcd]
  rw [e, ← integral_sub hi (by simp)]
  have := norm_integral_le_of_norm_le_const (a := c) (b := d) (f := fun x => f x - y) (C := ε) (by
    intro x hx
    rw [Set.uIoc_of_le hcd] at hx
    exact h x ⟨hx.1.le, hx.2⟩)
  rwa [Real.norm_eq_abs, abs_of_nonneg (by linarith : 0 ≤ d - c)] at this

/-- the composite midpoint sum with `n` panels: the mathematical formula, for every `n` -/
noncomputable def compositeMidpoint (n : ℕ) (a b : ℝ) (f : ℝ → ℝ) : ℝ :=
  (b - a) / n * ∑ i ∈ Finset.range n, f (a + (i + 1 / 2) * ((b - a) / n))

/-- the composite trapezoidal sum with `n` panels -/
noncomputable def compositeTrapezoid (n : ℕ) (a b : ℝ) (f : ℝ → ℝ) : ℝ :=
  (b - a) / n * ∑ i ∈ Finset.range n, (f (a + i * ((b - a) / n)) + f (a + (i + 1) * ((b - a) / n))) / 2

/-- the composite Simpson sum with `n` panels -/
noncomputable def compositeSimpson (n : ℕ) (a b : ℝ) (f : ℝ → ℝ) : ℝ :=
  ∑ i ∈ Finset.range n, (b - a) / n / 2 / 3 * (f (a + (i + 1) * ((b - a) / n)) + 4 * f (a + (i + 1 / 2) * ((b - a) / n)) + f (a + i * ((b - a) / n)))

/-- C29, the formulas: on every rule, the crate's three loops compute the composite sums of the textbooks.  (A rule has fewer than `2^32` panels; the sums are defined for every
`n`, so that a limit can be stated.) -/
theorem C29_formula (r : NodeRule) (a b : ℝ) (f : ℝ → ℝ) :
    (AnyRule.midpoint r).value a b f = compositeMidpoint r.degree a b f ∧
    (AnyRule.trapezoid r).value a b f = compositeTrapezoid r.degree a b f ∧
    (AnyRule.simpson r).value a b f = compositeSimpson r.degree a b f :=
  ⟨value_midpoint r a b f, value_trapezoid r a b f, value_simpson_sum r a b f⟩

/-- two panels on [0, 2] -/
example : (AnyRule.midpoint ⟨2, by decide, by decide⟩).value (0 : ℝ) 2 (fun x => x ^ 2) = (1 / 2) ^ 2 + (3 / 2) ^ 2 := by
  rw [(C29_formula _ _ _ _).1, compositeMidpoint]
  norm_num [Finset.sum_range_succ]

theorem composite_swap {n : ℕ} (hn : 0 < n) (a b : ℝ) (f : ℝ → ℝ) :
    compositeMidpoint n b a f = -compositeMidpoint n a b f ∧ compositeTrapezoid n b a f = -compositeTrapezoid n a b f ∧
    compositeSimpson n b a f = -compositeSimpson n a b f := by
  have hn' : (n : ℝ) ≠ 0 := by positivity
  have key : ∀ t : ℝ, ∀ i < n, b + (((n - 1 - i : ℕ) : ℝ) + (1 - t)) * ((a - b) / n) = a + (i + t) * ((b - a) / n) := fun t i hi => by
    have : ((n - 1 - i : ℕ) : ℝ) = n - 1 - i := by
      rw [Nat.cast_sub (by omega), Nat.cast_sub (by omega)]; simp
    rw [this]
    field_simp
    ring
  refine ⟨?_, ?_, ?_⟩
  · unfold compositeMidpoint
    rw [← Finset.sum_range_reflect (fun i : ℕ => f (b + ((i : ℝ) + 1 / 2) * ((a - b) / n))), ← neg_mul, ← neg_div, neg_sub]
    congr 1
    refine Finset.sum_congr rfl fun i hi => ?_
    rw [← key (1 / 2) i (Finset.mem_range.1 hi)]
    norm_num
  · unfold compositeTrapezoid
    rw [← Finset.sum_range_reflect (fun i : ℕ => (f (b + (i : ℝ) * ((a - b) / n)) + f (b + ((i : ℝ) + 1) * ((a - b) / n))) / 2), ← neg_mul, ← neg_div, neg_sub]
    congr 1
    refine Finset.sum_congr rfl fun i hi => ?_
    have k0 := key 0 i (Finset.mem_range.1 hi)
    have k1 := key 1 i (Finset.mem_range.1 hi)
    rw [sub_zero, add_zero] at k0
    rw [sub_self, add_zero] at k1
    rw [k0, k1, add_comm]
  · unfold compositeSimpson
    rw [← Finset.sum_range_reflect (fun i : ℕ => (a - b) / n / 2 / 3 * (f (b + ((i : ℝ) + 1) * ((a - b) / n)) + 4 * f (b + ((i : ℝ) + 1 / 2) * ((a - b) / n)) +
      f (b + (i : ℝ) * ((a - b) / n)))), ← Finset.sum_neg_distrib]
    refine Finset.sum_congr rfl fun i hi => ?_
    have k0 := key 0 i (Finset.mem_range.1 hi)
    have k1 := key 1 i (Finset.mem_range.1 hi)
    have k2 := key (1 / 2) i (Finset.mem_range.1 hi)
    rw [sub_zero, add_zero] at k0
    rw [sub_self, add_zero] at k1
    rw [show (1 : ℝ) - 1 / 2 = 1 / 2 by norm_num] at k2
    rw [k0, k1, k2]
    ring

theorem composite_modulus {f : ℝ → ℝ} {a b ε : ℝ} (hf : ContinuousOn f (Set.uIcc a b)) {n : ℕ} (hpos : 0 < n)
    (hω : ∀ x ∈ Set.uIcc a b, ∀ y ∈ Set.uIcc a b, |x - y| ≤ |b - a| / n → |f x - f y| ≤ ε) :
    |(∫ x in a..b, f x) - compositeMidpoint n a b f| ≤ ε * |b - a| ∧
    |(∫ x in a..b, f x) - compositeTrapezoid n a b f| ≤ ε * |b - a| ∧
    |(∫ x in a..b, f x) - compositeSimpson n a b f| ≤ ε * |b - a| := by
  have hn : (0 : ℝ) < n := by exact_mod_cast hpos
  have hn1 : ((n : ℕ) : ℝ) ≠ 0 := hn.ne'
  revert hf hω
  refine orient (P := fun a b => ContinuousOn f (Set.uIcc a b) →
    (∀ x ∈ Set.uIcc a b, ∀ y ∈ Set.uIcc a b, |x - y| ≤ |b - a| / n → |f x - f y| ≤ ε) →
    |(∫ x in a..b, f x) - compositeMidpoint n a b f| ≤ ε * |b - a| ∧
    |(∫ x in a..b, f x) - compositeTrapezoid n a b f| ≤ ε * |b - a| ∧
    |(∫ x in a..b, f x) - compositeSimpson n a b f| ≤ ε * |b - a|) ?_ ?_ ?_ a b
  · intro a b h hf hω
    rw [Set.uIcc_comm] at hf hω
    rw [abs_sub_comm a b] at hω ⊢
    have := h hf hω
    have h1 : ∀ X Y : ℝ, |(∫ x in b..a, f x) - -Y| = |(∫ x in a..b, f x) - Y| := fun X Y => by
      rw [integral_symm, ← abs_neg]; congr 1; ring
    obtain ⟨s1, s2, s3⟩ := composite_swap hpos a b f
    rw [s1, s2, s3, h1 0, h1 0, h1 0]
    exact this
  · intro a b hab hf hω
    rw [Set.uIcc_of_lt hab] at hf hω
    rw [abs_of_pos (sub_pos.2 hab)] at hω ⊢
    have ev : (n : ℝ) * (ε * ((b - a) / n)) = ε * (b - a) := by field_simp
    have geo : ∀ i < n, ∀ t : ℝ, 0 ≤ t → t ≤ 1 → ∀ x ∈ Set.Icc (a + i * ((b - a) / n)) (a + (i + 1) * ((b - a) / n)),
        |f x - f (a + (i + t) * ((b - a) / n))| ≤ ε := by
      intro i hi t ht0 ht1 x hx
      obtain ⟨g0, g1, g2, g3, g4⟩ := panel_geometry (a := a) (b := b) hab.le hi
      rw [g1] at g3
      rw [g2] at g4
      set h := (b - a) / n with hh
      have h0 : 0 ≤ h := by linarith
      refine hω x ⟨by linarith [hx.1], by linarith [hx.2]⟩ _ ⟨?_, ?_⟩ ?_
      · nlinarith [mul_nonneg ht0 h0]
      · nlinarith [mul_nonneg (sub_nonneg.2 ht1) h0]
      · rw [abs_le]
        constructor
        · nlinarith [hx.1, mul_nonneg (sub_nonneg.2 ht1) h0]
        · nlinarith [hx.2, mul_nonneg ht0 h0]
    have fin : ∀ g : ℕ → ℝ, (∀ i < n, ∀ x ∈ Set.Icc (a + i * ((b - a) / n)) (a + (i + 1) * ((b - a) / n)),
        |f x - g i| ≤ ε) → |(∫ x in a..b, f x) - ∑ i ∈ Finset.range n, (b - a) / n * g i| ≤ ε * (b - a) := by
      intro g hg
      rw [← ev]
      refine composite_error hab.le hf hpos ?_
      intro i hi
      obtain ⟨g0, g1, g2, g3, g4⟩ := panel_geometry (a := a) (b := b) hab.le hi
      rw [g1] at g3
      rw [g2] at g4
      have := panel_oscillation (y := g i) (ε := ε) (f := f) (by linarith)
        (hf.mono (Set.Icc_subset_Icc g3 g4)) (hg i hi)
      rw [show a + ((i : ℝ) + 1) * ((b - a) / n) - (a + i * ((b - a) / n)) = (b - a) / n by ring] at this
      exact this
    refine ⟨?_, ?_, ?_⟩
    · rw [compositeMidpoint, Finset.mul_sum]
      exact fin _ fun i hi x hx => geo i hi (1 / 2) (by norm_num) (by norm_num) x hx
    · rw [compositeTrapezoid, Finset.mul_sum]
      refine fin _ fun i hi x hx => ?_
      have e1 := abs_le.1 (geo i hi 0 le_rfl zero_le_one x hx)
      have e2 := abs_le.1 (geo i hi 1 zero_le_one le_rfl x hx)
      rw [add_zero] at e1
      rw [abs_le]
      constructor <;> linarith [e1.1, e1.2, e2.1, e2.2]
    · rw [compositeSimpson]
      have e : ∀ i, (b - a) / n / 2 / 3 *
          (f (a + ((i : ℕ) + 1) * ((b - a) / n)) + 4 * f (a + (i + 1 / 2) * ((b - a) / n)) +
          f (a + i * ((b - a) / n))) = (b - a) / n *
          ((f (a + ((i : ℕ) + 1) * ((b - a) / n)) + 4 * f (a + (i + 1 / 2) * ((b - a) / n)) +
          f (a + i * ((b - a) / n))) / 6) := by intro i; ring
      simp only [e]
      refine fin _ fun i hi x hx => ?_
      have e1 := abs_le.1 (geo i hi 0 le_rfl zero_le_one x hx)
      have e2 := abs_le.1 (geo i hi 1 zero_le_one le_rfl x hx)
      have e3 := abs_le.1 (geo i hi (1 / 2) (by norm_num) (by norm_num) x hx)
      rw [add_zero] at e1
      rw [abs_le]
      constructor <;> linarith [e1.1, e1.2, e2.1, e2.2, e3.1, e3.2]
  · intro a _ _
    simp [compositeMidpoint, compositeTrapezoid, compositeSimpson]

/-- C29, quantitative: if `f` is continuous and varies by at most `ε` over distances up to `|b-a|/n`, the error of each of the
three rules of degree `n` is at most `ε|b-a|`. -/
theorem C29_modulus {f : ℝ → ℝ} {a b ε : ℝ} (hf : ContinuousOn f (Set.uIcc a b)) (r : NodeRule)
    (hω : ∀ x ∈ Set.uIcc a b, ∀ y ∈ Set.uIcc a b, |x - y| ≤ |b - a| / r.degree → |f x - f y| ≤ ε) :
    |(∫ x in a..b, f x) - (AnyRule.midpoint r).value a b f| ≤ ε * |b - a| ∧
    |(∫ x in a..b, f x) - (AnyRule.trapezoid r).value a b f| ≤ ε * |b - a| ∧
    |(∫ x in a..b, f x) - (AnyRule.simpson r).value a b f| ≤ ε * |b - a| := by
  obtain ⟨h1, h2, h3⟩ := C29_formula r a b f
  rw [h1, h2, h3]
  exact composite_modulus hf r.pos hω

/-- `|x|` has modulus of continuity 1, so four panels on [-1, 1] give an error of at most 1 -/
example : |(∫ x in (-1 : ℝ)..1, |x|) - (AnyRule.midpoint ⟨4, by decide, by decide⟩).value (-1) 1 (fun x => |x|)| ≤ 1 := by
  refine ((C29_modulus (f := fun x => |x|) (ε := 1 / 2) continuous_abs.continuousOn ⟨4, by decide, by decide⟩ fun x _ y _ h => ?_).1).trans ?_
  · refine (abs_abs_sub_abs_le_abs_sub x y).trans (h.trans ?_)
    norm_num
  · norm_num

/-- C29: for every continuous integrand the composite sums (`C29_formula`) converge to the integral. -/
theorem C29_convergence {f : ℝ → ℝ} {a b : ℝ} (hf : ContinuousOn f (Set.uIcc a b)) :
    Tendsto (fun n => compositeMidpoint n a b f) atTop (nhds (∫ x in a..b, f x)) ∧
    Tendsto (fun n => compositeTrapezoid n a b f) atTop (nhds (∫ x in a..b, f x)) ∧
    Tendsto (fun n => compositeSimpson n a b f) atTop (nhds (∫ x in a..b, f x)) := by
  have key : ∀ δ > 0, ∃ N : ℕ, ∀ n ≥ N, |compositeMidpoint n a b f - ∫ x in a..b, f x| < δ ∧ |compositeTrapezoid n a b f - ∫ x in a..b, f x| < δ ∧
      |compositeSimpson n a b f - ∫ x in a..b, f x| < δ := by
    intro δ hδ
    have huc := isCompact_uIcc.uniformContinuousOn_of_continuous hf
    rw [Metric.uniformContinuousOn_iff_le] at huc
    set ε := δ / (2 * (|b - a| + 1)) with hε
    have hab0 : 0 ≤ |b - a| := abs_nonneg _
    have hε0 : 0 < ε := by positivity
    obtain ⟨η, hη, hu⟩ := huc ε hε0
    obtain ⟨N, hN⟩ := exists_nat_gt (|b - a| / η)
    refine ⟨N + 1, fun n hr => ?_⟩
    have hn : (0 : ℝ) < n := by exact_mod_cast (by omega : 0 < n)
    have hle : |b - a| / n ≤ η := by
      rw [div_le_iff₀ hn]
      have h1 : (N : ℝ) ≤ n := by exact_mod_cast (by omega : N ≤ n)
      rw [div_lt_iff₀ hη] at hN
      nlinarith
    have h := composite_modulus hf (n := n) (by omega) (ε := ε) (fun x hx y hy hxy => by
      have := hu x hx y hy (by rw [Real.dist_eq]; linarith)
      rwa [Real.dist_eq] at this)
    have hlt : ε * |b - a| < δ := by
      calc ε * |b - a| ≤ ε * (|b - a| + 1) := by gcongr; linarith
        _ = δ / 2 := by rw [hε]; field_simp
        _ < δ := by linarith
    simp only [abs_sub_comm _ (∫ x in a..b, f x)]
    exact ⟨h.1.trans_lt hlt, h.2.1.trans_lt hlt, h.2.2.trans_lt hlt⟩
  simp only [Metric.tendsto_atTop, Real.dist_eq]
  refine ⟨fun δ hδ => ?_, fun δ hδ => ?_, fun δ hδ => ?_⟩ <;> obtain ⟨N, hN⟩ := key δ hδ
  · exact ⟨N, fun n hn => (hN n hn).1⟩
  · exact ⟨N, fun n hn => (hN n hn).2.1⟩
  · exact ⟨N, fun n hn => (hN n hn).2.2⟩

example : Tendsto (fun n => compositeSimpson n (-1) 2 fun x => |x|) atTop (nhds (∫ x in (-1 : ℝ)..2, |x|)) :=
  (C29_convergence continuous_abs.continuousOn).2.2

/-! ## C23 -/

/-- C23 for the Newton-Cotes rules: the midpoint rule evaluates strictly inside, the trapezoid and Simpson rules in the closed
interval, and they do evaluate both end points. -/
theorem C23_newton_cotes (r : NodeRule) {a b : ℝ} (hab : a < b) :
    (∀ x ∈ points a b (.midpoint r), a < x ∧ x < b) ∧
    (∀ x ∈ points a b (.trapezoid r), a ≤ x ∧ x ≤ b) ∧ a ∈ points a b (.trapezoid r) ∧ b ∈ points a b (.trapezoid r) ∧
    (∀ x ∈ points a b (.simpson r), a ≤ x ∧ x ≤ b) ∧ a ∈ points a b (.simpson r) ∧ b ∈ points a b (.simpson r) := by
  have hn : (0 : ℝ) < r.degree := by exact_mod_cast r.pos
  have h0 : 0 < (b - a) / r.degree := div_pos (by linarith) hn
  have hmul : (r.degree : ℝ) * ((b - a) / r.degree) = b - a := mul_div_cancel₀ _ hn.ne'
  have inner : ∀ t : ℝ, 0 ≤ t → t ≤ r.degree → a ≤ a + t * ((b - a) / r.degree) ∧ a + t * ((b - a) / r.degree) ≤ b := by
    intro t ht0 ht1
    constructor <;> nlinarith [mul_nonneg ht0 h0.le, mul_nonneg (sub_nonneg.2 ht1) h0.le]
  refine ⟨?_, ?_, by simp [points], by simp [points], ?_, by simp [points], by simp [points]⟩
  · intro x hx
    simp only [points, List.mem_map, List.mem_range, real_add, real_sub, real_mul, real_div, real_ofNat, real_lit_half] at hx
    obtain ⟨i, hi, rfl⟩ := hx
    have hi' : (i : ℝ) + 1 ≤ r.degree := by exact_mod_cast hi
    have hi0 : (0 : ℝ) ≤ i := Nat.cast_nonneg i
    constructor
    · nlinarith
    · nlinarith
  · intro x hx
    simp only [points, List.mem_append, List.mem_cons, List.not_mem_nil, or_false, List.mem_map, List.mem_range, real_add, real_sub,
      real_mul, real_div, real_ofNat] at hx
    rcases hx with (rfl | rfl) | ⟨i, hi, rfl⟩
    · exact ⟨le_rfl, hab.le⟩
    · exact ⟨hab.le, le_rfl⟩
    · exact inner _ (Nat.cast_nonneg _) (by exact_mod_cast (by omega : i + 1 ≤ r.degree))
  · intro x hx
    simp only [points, List.mem_append, List.mem_cons, List.not_mem_nil, or_false, List.mem_map, List.mem_range, real_add, real_sub,
      real_mul, real_div, real_ofNat, real_lit_two, real_lit_one] at hx
    rcases hx with (⟨i, hi, rfl⟩ | ⟨i, hi, rfl⟩) | rfl | rfl
    · exact inner _ (Nat.cast_nonneg _) (by exact_mod_cast (by omega : i + 1 ≤ r.degree))
    · have hi' : (i : ℝ) + 1 ≤ r.degree := by exact_mod_cast hi
      have hi0 : (0 : ℝ) ≤ i := Nat.cast_nonneg i
      have := inner ((2 * ((i + 1 : ℕ) : ℝ) - 1) / 2) (by push_cast; linarith) (by push_cast; linarith)
      constructor
      · convert this.1 using 2; ring
      · convert this.2 using 2; ring
    · exact ⟨le_rfl, hab.le⟩
    · exact ⟨hab.le, le_rfl⟩

example : ∀ x ∈ points (2 : ℝ) 5 (.midpoint ⟨7, by decide, by decide⟩), 2 < x ∧ x < 5 :=
  (C23_newton_cotes _ (by norm_num)).1

end GaussQuad.Props
