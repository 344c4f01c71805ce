import Verif.Proofs.Jackson
import Verif.Proofs.BernsteinInterval
import Verif.Spec.FiniteSmooth

/-!
The algebraic rate of a Gauss rule with positive weights for an integrand of finite smoothness.
-/

namespace GaussQuad.Jackson
open Polynomial MeasureTheory Set Spec Bernstein

variable {a b K : ℝ} {g : ℝ → ℝ} {k : ℕ}

/-- transport of the approximation theorem to [-1, 1] -/
theorem smooth_transport (hab : a ≠ b) (hg : SmoothBetween g a b k K) (m : ℕ) (hk : k ≤ m) :
    ∃ p : ℝ[X], p.natDegree ≤ m ∧ ∀ x ∈ Icc (-1 : ℝ) 1,
      |g ((b - a) / 2 * x + (a + b) / 2) - p.eval x| ≤ (Real.pi ^ 2 / 4 * |b - a|) ^ (k + 1) * K / (m + 2).descFactorial (k + 1) := by
  obtain ⟨h1, h2⟩ := hg
  have hlt : min a b < max a b := min_lt_max.2 hab
  have hlen : max a b - min a b = |b - a| := by rw [max_sub_min_eq_abs, abs_sub_comm]
  obtain ⟨p, hp1, hp2⟩ := smooth_approx hlt k h1 h2 m hk
  rw [hlen] at hp2
  refine ⟨p.comp (C ((b - a) / 2) * X + C ((a + b) / 2)), ?_, fun x hx => ?_⟩
  · refine natDegree_comp_le.trans ?_
    have : (C ((b - a) / 2) * X + C ((a + b) / 2)).natDegree ≤ 1 := natDegree_linear_le
    calc _ ≤ p.natDegree * 1 := Nat.mul_le_mul_left _ this
      _ ≤ m := by omega
  · have := hp2 _ (mem_uIcc_of_Icc (a := a) (b := b) hx)
    simpa using this

theorem continuousOn_of_smooth (hg : SmoothBetween g a b k K) : ContinuousOn (fun x => g ((b - a) / 2 * x + (a + b) / 2)) (Icc (-1) 1) :=
  hg.1.continuousOn.comp (by fun_prop) fun _ hx => mem_uIcc_of_Icc hx

/-- The error of a Gauss rule for an integrand close to a polynomial of the degree the rule integrates exactly. -/
theorem interval_approx {L : List (ℝ × ℝ)} {w : ℝ → ℝ} {c : ℝ} (hc : 0 < c)
    (hex : ExactUpTo L (2 * L.length - 1) (Ioo (-1) 1) w c) (hpos : PosDef (Ioo (-1) 1) w) (hw : ∀ x ∈ Ioo (-1 : ℝ) 1, 0 ≤ w x)
    (hint : ∀ p : ℝ[X], IntegrableOn (fun x => p.eval x * w x) (Ioo (-1) 1)) (hab : a ≠ b) {ε : ℝ}
    (hcont : ContinuousOn (fun x => g ((b - a) / 2 * x + (a + b) / 2)) (Icc (-1) 1)) {p : ℝ[X]} (hp1 : p.natDegree ≤ 2 * L.length - 1)
    (hp2 : ∀ x ∈ Icc (-1 : ℝ) 1, |g ((b - a) / 2 * x + (a + b) / 2) - p.eval x| ≤ ε) :
    IntervalIntegrable (fun t => g t * w ((2 * t - a - b) / (b - a))) volume a b ∧
    |(b - a) / 2 * quad L (fun x => g ((b - a) / 2 * x + (a + b) / 2)) - c * ∫ t in a..b, g t * w ((2 * t - a - b) / (b - a))| ≤
      c * (|b - a| * ε * ∫ x in Ioo (-1 : ℝ) 1, w x) := by
  have hwi : IntegrableOn w (Ioo (-1) 1) := by simpa using hint 1
  set G : ℝ → ℝ := fun x => g ((b - a) / 2 * x + (a + b) / 2) with hG
  have hGi : IntegrableOn (fun x => G x * w x) (Ioo (-1 : ℝ) 1) := by
    have h1 : IntegrableOn w (Icc (-1) 1) := by rwa [integrableOn_Icc_iff_integrableOn_Ioo]
    exact (h1.continuousOn_mul hcont isCompact_Icc).mono_set Ioo_subset_Icc_self
  refine ⟨interval_integrable hab hGi, ?_⟩
  rw [← integral_transport w g hab]
  have hnode : ∀ q ∈ L, q.1 ∈ Icc (-1 : ℝ) 1 := fun q hq =>
    ⟨(gauss_nodes_gt hc hex hpos (fun x hx => hx.1.le) q hq).le, (gauss_nodes_lt hc hex hpos (fun x hx => hx.2.le) q hq).le⟩
  have hwq : ∀ q ∈ L, 0 ≤ q.2 := fun q hq => (gauss_weights_pos hc hex hpos q hq).le
  have hLs : ExactUpTo (L.map fun q => (q.1, q.2 / c)) (2 * L.length - 1) (Ioo (-1) 1) w 1 := by
    intro q hq
    have := hex q hq
    rw [one_mul]
    have e : quad (L.map fun q => (q.1, q.2 / c)) (fun x => q.eval x) = quad L (fun x => q.eval x) / c := quad_scale L c _
    rw [e, this]
    field_simp
  have h5 := gauss_error (L := L.map fun q => (q.1, q.2 / c)) hLs
    (by intro q hq; obtain ⟨q', hq', rfl⟩ := List.mem_map.1 hq; exact div_nonneg (hwq q' hq') hc.le)
    (by intro q hq; obtain ⟨q', hq', rfl⟩ := List.mem_map.1 hq; exact hnode q' hq') hw hwi hcont hp1 hp2
  have e : quad (L.map fun q => (q.1, q.2 / c)) G = quad L G / c := quad_scale L c G
  rw [e] at h5
  have h6 : (b - a) / 2 * quad L G - c * ((b - a) / 2 * ∫ x in Ioo (-1 : ℝ) 1, G x * w x) =
      (b - a) / 2 * c * (quad L G / c - ∫ x in Ioo (-1 : ℝ) 1, G x * w x) := by field_simp
  rw [h6, abs_mul, abs_mul, abs_of_pos hc, abs_div, abs_two]
  refine (mul_le_mul_of_nonneg_left h5 (by positivity)).trans (le_of_eq ?_)
  ring

/-- The error of a Gauss rule for an integrand of finite smoothness. -/
theorem interval_smooth {L : List (ℝ × ℝ)} {w : ℝ → ℝ} {c : ℝ} {n : ℕ} (hn : 0 < n) (hL : L.length = n) (hc : 0 < c)
    (hex : ExactUpTo L (2 * L.length - 1) (Ioo (-1) 1) w c) (hpos : PosDef (Ioo (-1) 1) w) (hw : ∀ x ∈ Ioo (-1 : ℝ) 1, 0 ≤ w x)
    (hint : ∀ p : ℝ[X], IntegrableOn (fun x => p.eval x * w x) (Ioo (-1) 1)) (hab : a ≠ b) (hk : k < 2 * n) (hg : SmoothBetween g a b k K) :
    IntervalIntegrable (fun t => g t * w ((2 * t - a - b) / (b - a))) volume a b ∧
    |(b - a) / 2 * quad L (fun x => g ((b - a) / 2 * x + (a + b) / 2)) - c * ∫ t in a..b, g t * w ((2 * t - a - b) / (b - a))| ≤
      c * (|b - a| * ((Real.pi ^ 2 / 4 * |b - a|) ^ (k + 1) * K / (2 * n + 1).descFactorial (k + 1)) * ∫ x in Ioo (-1 : ℝ) 1, w x) := by
  obtain ⟨p, hp1, hp2⟩ := smooth_transport hab hg (2 * n - 1) (by omega)
  rw [show 2 * n - 1 + 2 = 2 * n + 1 by omega] at hp2
  exact interval_approx hc hex hpos hw hint hab (continuousOn_of_smooth hg) (by rwa [hL]) hp2

end GaussQuad.Jackson
