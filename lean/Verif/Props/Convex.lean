import Verif.Proofs.RealRuleLemmas
import Mathlib.Analysis.Convex.Continuous
import Mathlib.Analysis.Convex.SpecificFunctions.Basic
import Mathlib.MeasureTheory.Integral.IntervalIntegral.Basic

/-!
# C84: convex integrands

For a convex integrand, whether differentiable or not, `Midpoint` (`/repo/src/midpoint/mod.rs` l.76-88) never overestimates the integral and `Trapezoid`
(`/repo/src/trapezoid/mod.rs` l.74-85) never underestimates it, so that the two results enclose it.
-/

namespace GaussQuad.Props
open Spec FloatOps MeasureTheory

theorem convex_integrable {c d : ℝ} (hcd : c ≤ d) {g : ℝ → ℝ} (hg : ConvexOn ℝ (Set.Icc c d) g) : IntervalIntegrable g volume c d := by
  rw [intervalIntegrable_iff_integrableOn_Ioo_of_le hcd]
  have hc := hg.continuousOn_interior
  rw [interior_Icc] at hc
  have hmax : ∀ x ∈ Set.Icc c d, g x ≤ max (g c) (g d) := fun x hx => hg.le_max_of_mem_Icc (Set.left_mem_Icc.2 hcd) (Set.right_mem_Icc.2 hcd) hx
  refine Integrable.of_bound (hc.aestronglyMeasurable measurableSet_Ioo) (|max (g c) (g d)| + 2 * |g ((c + d) / 2)|) ?_
  rw [ae_restrict_iff' measurableSet_Ioo]
  refine ae_of_all _ fun x hx => ?_
  have hx' : x ∈ Set.Icc c d := ⟨hx.1.le, hx.2.le⟩
  have hy' : c + d - x ∈ Set.Icc c d := ⟨by linarith [hx.2], by linarith [hx.1]⟩
  have h1 := hmax x hx'
  have h2 := hmax _ hy'
  have h3 := hg.2 hx' hy' (by norm_num : (0 : ℝ) ≤ 1 / 2) (by norm_num : (0 : ℝ) ≤ 1 / 2) (by norm_num)
  simp only [smul_eq_mul] at h3
  rw [show 1 / 2 * x + 1 / 2 * (c + d - x) = (c + d) / 2 by ring] at h3
  rw [Real.norm_eq_abs, abs_le]
  have e1 := abs_nonneg (g ((c + d) / 2))
  have e2 := neg_abs_le (g ((c + d) / 2))
  have e3 := le_abs_self (max (g c) (g d))
  constructor <;> linarith

/-- the inequality of Hermite and Hadamard -/
theorem hermite_hadamard {c d : ℝ} (hcd : c ≤ d) {g : ℝ → ℝ} (hg : ConvexOn ℝ (Set.Icc c d) g) :
    (d - c) * g ((c + d) / 2) ≤ ∫ x in c..d, g x ∧ (∫ x in c..d, g x) ≤ (d - c) * ((g c + g d) / 2) := by
  have hi := convex_integrable hcd hg
  have hr : IntervalIntegrable (fun x => g (c + d - x)) volume c d := by
    have := (hi.comp_sub_left (c + d)).symm
    rwa [add_sub_cancel_left, add_sub_cancel_right] at this
  have hs : (∫ x in c..d, (g x + g (c + d - x)) / 2) = ∫ x in c..d, g x := by
    rw [intervalIntegral.integral_div, intervalIntegral.integral_add hi hr, intervalIntegral.integral_comp_sub_left (fun x => g x) (c + d)]
    rw [add_sub_cancel_left, add_sub_cancel_right]
    ring
  have hint : IntervalIntegrable (fun x => (g x + g (c + d - x)) / 2) volume c d := (hi.add hr).div_const 2
  have hd0 : 0 ≤ d - c := sub_nonneg.2 hcd
  rw [← hs]
  constructor
  · rw [← smul_eq_mul, ← intervalIntegral.integral_const]
    refine intervalIntegral.integral_mono_on hcd intervalIntegrable_const hint fun x hx => ?_
    have h3 := hg.2 hx (⟨by linarith [hx.2], by linarith [hx.1]⟩ : c + d - x ∈ Set.Icc c d) (by norm_num : (0 : ℝ) ≤ 1 / 2) (by norm_num : (0 : ℝ) ≤ 1 / 2) (by norm_num)
    simp only [smul_eq_mul] at h3
    rw [show 1 / 2 * x + 1 / 2 * (c + d - x) = (c + d) / 2 by ring] at h3
    linarith
  · rw [← smul_eq_mul, ← intervalIntegral.integral_const]
    refine intervalIntegral.integral_mono_on hcd hint intervalIntegrable_const fun x hx => ?_
    rcases hcd.eq_or_lt with rfl | hlt
    · obtain rfl : x = c := le_antisymm hx.2 hx.1
      simp
    have hp : 0 < d - c := sub_pos.2 hlt
    have t0 : 0 ≤ (x - c) / (d - c) := div_nonneg (sub_nonneg.2 hx.1) hd0
    have t1 : 0 ≤ (d - x) / (d - c) := div_nonneg (sub_nonneg.2 hx.2) hd0
    have ht : (d - x) / (d - c) + (x - c) / (d - c) = 1 := by field_simp; ring
    have h1 := hg.2 (Set.left_mem_Icc.2 hcd) (Set.right_mem_Icc.2 hcd) t1 t0 ht
    have h2 := hg.2 (Set.left_mem_Icc.2 hcd) (Set.right_mem_Icc.2 hcd) t0 t1 (by rw [add_comm]; exact ht)
    simp only [smul_eq_mul] at h1 h2
    rw [show (d - x) / (d - c) * c + (x - c) / (d - c) * d = x by field_simp; ring] at h1
    rw [show (x - c) / (d - c) * c + (d - x) / (d - c) * d = c + d - x by field_simp; ring] at h2
    have e : ((d - x) / (d - c) + (x - c) / (d - c)) * (g c + g d) = g c + g d := by rw [ht, one_mul]
    nlinarith

section panels
variable {a b : ℝ} {g : ℝ → ℝ}

theorem panel_subset (hab : a ≤ b) {n i : ℕ} (hi : i < n) :
    a ≤ a + i * ((b - a) / n) ∧ a + i * ((b - a) / n) ≤ a + (i + 1) * ((b - a) / n) ∧ a + (i + 1) * ((b - a) / n) ≤ b := by
  have hn : (0 : ℝ) < n := by exact_mod_cast (show 0 < n by omega)
  have h0 : 0 ≤ (b - a) / n := div_nonneg (sub_nonneg.2 hab) hn.le
  have hi' : (i : ℝ) + 1 ≤ n := by exact_mod_cast hi
  refine ⟨by nlinarith [mul_nonneg (Nat.cast_nonneg (α := ℝ) i) h0], by nlinarith, ?_⟩
  have : ((i : ℝ) + 1) * ((b - a) / n) ≤ n * ((b - a) / n) := mul_le_mul_of_nonneg_right hi' h0
  rw [mul_div_cancel₀ _ hn.ne'] at this
  linarith

theorem panel_convex (hab : a ≤ b) (hg : ConvexOn ℝ (Set.Icc a b) g) {n i : ℕ} (hi : i < n) :
    ConvexOn ℝ (Set.Icc (a + i * ((b - a) / n)) (a + (i + 1) * ((b - a) / n))) g := by
  obtain ⟨h1, -, h3⟩ := panel_subset hab hi
  exact hg.subset (Set.Icc_subset_Icc h1 h3) (convex_Icc _ _)

theorem integral_panels (hab : a ≤ b) (hg : ConvexOn ℝ (Set.Icc a b) g) {n : ℕ} (hn : 0 < n) :
    (∫ x in a..b, g x) = ∑ i ∈ Finset.range n, ∫ x in (a + i * ((b - a) / n))..(a + (i + 1) * ((b - a) / n)), g x := by
  have hn' : (n : ℝ) ≠ 0 := by exact_mod_cast hn.ne'
  have h := intervalIntegral.sum_integral_adjacent_intervals (f := g) (μ := volume) (a := fun i : ℕ => a + i * ((b - a) / n)) (n := n) fun k hk => by
    push_cast
    exact convex_integrable (panel_subset hab hk).2.1 (panel_convex hab hg hk)
  push_cast at h
  rw [h, zero_mul, add_zero, mul_div_cancel₀ _ hn', add_sub_cancel]

end panels

/-- C84: on a convex integrand the midpoint rule is at most the integral, which is at most the mean of midpoint and trapezoid rule, which is at most the trapezoid rule;
so the difference of the two results bounds the errors of all three rules. -/
theorem C84_convex (r : NodeRule) {a b : ℝ} (hab : a ≤ b) {g : ℝ → ℝ} (hg : ConvexOn ℝ (Set.Icc a b) g) :
    IntervalIntegrable g volume a b ∧
    (AnyRule.midpoint r).value a b g ≤ ∫ x in a..b, g x ∧
    (∫ x in a..b, g x) ≤ ((AnyRule.midpoint r).value a b g + (AnyRule.trapezoid r).value a b g) / 2 ∧
    (∫ x in a..b, g x) ≤ (AnyRule.trapezoid r).value a b g ∧
    (AnyRule.midpoint r).value a b g ≤ (AnyRule.simpson r).value a b g ∧ (AnyRule.simpson r).value a b g ≤ (AnyRule.trapezoid r).value a b g := by
  have hi := integral_panels hab hg r.pos
  have hmid : (AnyRule.midpoint r).value a b g ≤ ∫ x in a..b, g x := by
    rw [value_midpoint, hi, Finset.mul_sum]
    refine Finset.sum_le_sum fun i hin => ?_
    have hin := Finset.mem_range.1 hin
    have h := (hermite_hadamard (panel_subset hab hin).2.1 (panel_convex hab hg hin)).1
    rw [show (a + (i : ℝ) * ((b - a) / r.degree) + (a + (i + 1) * ((b - a) / r.degree))) / 2 = a + (i + 1 / 2) * ((b - a) / r.degree) by ring] at h
    refine le_trans (le_of_eq ?_) h
    ring
  have hmean : (∫ x in a..b, g x) ≤ ((AnyRule.midpoint r).value a b g + (AnyRule.trapezoid r).value a b g) / 2 := by
    rw [value_midpoint, value_trapezoid, hi, ← mul_add, ← Finset.sum_add_distrib, mul_div_assoc, Finset.sum_div, Finset.mul_sum]
    refine Finset.sum_le_sum fun i hin => ?_
    have hin := Finset.mem_range.1 hin
    have hle := (panel_subset hab hin).2.1
    have hc := panel_convex hab hg hin
    have hm : a + (i : ℝ) * ((b - a) / r.degree) ≤ a + (i + 1 / 2) * ((b - a) / r.degree) ∧ a + (i + 1 / 2 : ℝ) * ((b - a) / r.degree) ≤ a + (i + 1) * ((b - a) / r.degree) := by
      constructor <;> linarith
    have c1 := hc.subset (Set.Icc_subset_Icc le_rfl hm.2) (convex_Icc _ _)
    have c2 := hc.subset (Set.Icc_subset_Icc hm.1 le_rfl) (convex_Icc _ _)
    have h1 := (hermite_hadamard hm.1 c1).2
    have h2 := (hermite_hadamard hm.2 c2).2
    rw [← intervalIntegral.integral_add_adjacent_intervals (convex_integrable hm.1 c1) (convex_integrable hm.2 c2)]
    refine (add_le_add h1 h2).trans (le_of_eq ?_)
    ring
  have hmt : (AnyRule.midpoint r).value a b g ≤ (AnyRule.trapezoid r).value a b g := by linarith
  refine ⟨convex_integrable hab hg, hmid, hmean, by linarith, ?_, ?_⟩ <;> rw [value_simpson] <;> linarith

/-- C84: with twice as many panels both results move towards the integral, and the new trapezoid result is the mean of the old ones. -/
theorem C84_refine (r r' : NodeRule) (hr : r'.degree = 2 * r.degree) {a b : ℝ} (hab : a ≤ b) {g : ℝ → ℝ} (hg : ConvexOn ℝ (Set.Icc a b) g) :
    (AnyRule.midpoint r).value a b g ≤ (AnyRule.midpoint r').value a b g ∧
    (AnyRule.trapezoid r').value a b g = ((AnyRule.midpoint r).value a b g + (AnyRule.trapezoid r).value a b g) / 2 ∧
    (AnyRule.trapezoid r').value a b g ≤ (AnyRule.trapezoid r).value a b g := by
  have hn : (r.degree : ℝ) ≠ 0 := by exact_mod_cast r.pos.ne'
  have split : ∀ F : ℕ → ℝ, ∑ i ∈ Finset.range (2 * r.degree), F i = ∑ i ∈ Finset.range r.degree, (F (2 * i) + F (2 * i + 1)) := by
    intro F
    induction r.degree with
    | zero => simp
    | succ k ih => rw [Finset.sum_range_succ, ← ih, mul_add, mul_one, Finset.sum_range_succ, Finset.sum_range_succ]; ring
  have ht : (AnyRule.trapezoid r').value a b g = ((AnyRule.midpoint r).value a b g + (AnyRule.trapezoid r).value a b g) / 2 := by
    rw [value_trapezoid, value_trapezoid, value_midpoint, hr, split, ← mul_add, ← Finset.sum_add_distrib, mul_div_assoc, Finset.sum_div, Finset.mul_sum, Finset.mul_sum]
    refine Finset.sum_congr rfl fun i _ => ?_
    push_cast
    rw [show a + 2 * (i : ℝ) * ((b - a) / (2 * r.degree)) = a + i * ((b - a) / r.degree) by field_simp,
      show a + (2 * (i : ℝ) + 1) * ((b - a) / (2 * r.degree)) = a + (i + 1 / 2) * ((b - a) / r.degree) by field_simp; try ring,
      show a + (2 * (i : ℝ) + 1 + 1) * ((b - a) / (2 * r.degree)) = a + (i + 1) * ((b - a) / r.degree) by field_simp; try ring]
    field_simp
    ring
  obtain ⟨-, h1, h2, -⟩ := C84_convex r hab hg
  refine ⟨?_, ht, by rw [ht]; linarith⟩
  rw [value_midpoint, value_midpoint, hr, split, Finset.mul_sum, Finset.mul_sum]
  refine Finset.sum_le_sum fun i hin => ?_
  have hin := Finset.mem_range.1 hin
  obtain ⟨p1, p2, p3⟩ := panel_subset hab hin
  push_cast
  rw [show a + (2 * (i : ℝ) + 1 / 2) * ((b - a) / (2 * r.degree)) = a + (i + 1 / 4) * ((b - a) / r.degree) by field_simp; try ring,
    show a + (2 * (i : ℝ) + 1 + 1 / 2) * ((b - a) / (2 * r.degree)) = a + (i + 3 / 4) * ((b - a) / r.degree) by field_simp; try ring]
  have hd : 0 ≤ (b - a) / r.degree := by nlinarith
  have h3 := hg.2 (x := a + ((i : ℝ) + 1 / 4) * ((b - a) / r.degree)) (y := a + ((i : ℝ) + 3 / 4) * ((b - a) / r.degree))
    ⟨by linarith, by linarith⟩ ⟨by linarith, by linarith⟩ (by norm_num : (0 : ℝ) ≤ 1 / 2) (by norm_num : (0 : ℝ) ≤ 1 / 2) (by norm_num)
  simp only [smul_eq_mul] at h3
  rw [show 1 / 2 * (a + ((i : ℝ) + 1 / 4) * ((b - a) / r.degree)) + 1 / 2 * (a + ((i : ℝ) + 3 / 4) * ((b - a) / r.degree)) = a + (i + 1 / 2) * ((b - a) / r.degree) by ring] at h3
  have := mul_le_mul_of_nonneg_left h3 hd
  refine this.trans (le_of_eq ?_)
  field_simp
  try ring

/-- C84 for concave integrands: the inequalities reverse. -/
theorem C84_concave (r : NodeRule) {a b : ℝ} (hab : a ≤ b) {g : ℝ → ℝ} (hg : ConcaveOn ℝ (Set.Icc a b) g) :
    IntervalIntegrable g volume a b ∧
    (AnyRule.trapezoid r).value a b g ≤ ∫ x in a..b, g x ∧
    ((AnyRule.midpoint r).value a b g + (AnyRule.trapezoid r).value a b g) / 2 ≤ ∫ x in a..b, g x ∧
    (∫ x in a..b, g x) ≤ (AnyRule.midpoint r).value a b g ∧
    (AnyRule.trapezoid r).value a b g ≤ (AnyRule.simpson r).value a b g ∧ (AnyRule.simpson r).value a b g ≤ (AnyRule.midpoint r).value a b g := by
  obtain ⟨h0, h1, h2, h3, h4, h5⟩ := C84_convex r hab hg.neg
  have hm : (AnyRule.midpoint r).value a b (-g) = -(AnyRule.midpoint r).value a b g := by
    rw [value_midpoint, value_midpoint, ← mul_neg, ← Finset.sum_neg_distrib]; rfl
  have ht : (AnyRule.trapezoid r).value a b (-g) = -(AnyRule.trapezoid r).value a b g := by
    rw [value_trapezoid, value_trapezoid, ← mul_neg, ← Finset.sum_neg_distrib]
    congr 1
    refine Finset.sum_congr rfl fun i _ => ?_
    simp only [Pi.neg_apply]; ring
  have hi : (∫ x in a..b, (-g) x) = -∫ x in a..b, g x := intervalIntegral.integral_neg
  rw [value_simpson, hm, ht] at h4 h5
  rw [hm, ht, hi] at h2
  rw [hm, hi] at h1
  rw [ht, hi] at h3
  refine ⟨by simpa using h0.neg, by linarith, by linarith, by linarith, ?_, ?_⟩ <;> rw [value_simpson] <;> linarith

/-- `|x|` on [-1, 2] is convex and not differentiable: one panel gives 3/2 ≤ 5/2 ≤ 9/2 -/
example : (AnyRule.midpoint ⟨1, by norm_num, by norm_num⟩).value (-1 : ℝ) 2 (fun x : ℝ => |x|) = 3 / 2 ∧
    (AnyRule.trapezoid ⟨1, by norm_num, by norm_num⟩).value (-1 : ℝ) 2 (fun x : ℝ => |x|) = 9 / 2 ∧
    3 / 2 ≤ (∫ x in (-1 : ℝ)..2, |x|) ∧ (∫ x in (-1 : ℝ)..2, |x|) ≤ 3 := by
  have hm : (AnyRule.midpoint ⟨1, by norm_num, by norm_num⟩).value (-1 : ℝ) 2 (fun x : ℝ => |x|) = 3 / 2 := by
    rw [value_midpoint]; norm_num [abs_of_pos]
  have ht : (AnyRule.trapezoid ⟨1, by norm_num, by norm_num⟩).value (-1 : ℝ) 2 (fun x : ℝ => |x|) = 9 / 2 := by
    rw [value_trapezoid]; norm_num [abs_of_pos]
  have hc : ConvexOn ℝ (Set.Icc (-1 : ℝ) 2) (fun x => |x|) := by
    refine ⟨convex_Icc _ _, fun x _ y _ s t hs ht _ => ?_⟩
    simp only [smul_eq_mul]
    refine (abs_add_le _ _).trans (le_of_eq ?_)
    rw [abs_mul, abs_mul, abs_of_nonneg hs, abs_of_nonneg ht]
  obtain ⟨-, h1, h2, -⟩ := C84_convex ⟨1, by norm_num, by norm_num⟩ (by norm_num : (-1 : ℝ) ≤ 2) hc
  rw [hm] at h1
  rw [hm, ht] at h2
  exact ⟨hm, ht, h1, by linarith⟩

/-- the logarithm on [1, 2] is concave; four cells against two for its negative -/
example : (∫ x in (1 : ℝ)..2, Real.log x) ≤ (AnyRule.midpoint ⟨4, by norm_num, by norm_num⟩).value (1 : ℝ) 2 Real.log ∧
    (AnyRule.trapezoid ⟨4, by norm_num, by norm_num⟩).value (1 : ℝ) 2 (fun x => -Real.log x) ≤ (AnyRule.trapezoid ⟨2, by norm_num, by norm_num⟩).value (1 : ℝ) 2 (fun x => -Real.log x) := by
  have h : ConcaveOn ℝ (Set.Icc (1 : ℝ) 2) Real.log := strictConcaveOn_log_Ioi.concaveOn.subset (fun x hx => lt_of_lt_of_le one_pos hx.1) (convex_Icc _ _)
  exact ⟨(C84_concave _ one_le_two h).2.2.2.1, (C84_refine ⟨2, by norm_num, by norm_num⟩ ⟨4, by norm_num, by norm_num⟩ rfl one_le_two h.neg).2.2⟩

end GaussQuad.Props
