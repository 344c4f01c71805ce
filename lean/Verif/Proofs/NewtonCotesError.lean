import Verif.Proofs.RealRuleLemmas
import Mathlib.Analysis.Calculus.MeanValue
import Mathlib.Analysis.Calculus.Deriv.MeanValue
import Mathlib.Analysis.SpecialFunctions.Integrals.Basic
import Mathlib.MeasureTheory.Integral.IntervalIntegral.FundThmCalculus
import Mathlib.MeasureTheory.Integral.IntervalIntegral.IntegrationByParts

/-!
# Error of one panel of the midpoint, trapezoid and Simpson rules

`f₀, f₁, …` are a function and its derivatives on the open panel, continuous on the closed panel.
-/

namespace GaussQuad
open MeasureTheory intervalIntegral

/-- integrate a derivative bound `|E'(t)| ≤ C t^k` -/
theorem abs_le_of_deriv_bound {E E' : ℝ → ℝ} {H C : ℝ} {k : ℕ} (h0 : E 0 = 0) (hc : ContinuousOn E (Set.Icc 0 H))
    (hd : ∀ t ∈ Set.Ioo 0 H, HasDerivAt E (E' t) t) (hb : ∀ t ∈ Set.Ioo 0 H, |E' t| ≤ C * t ^ k) {t : ℝ} (ht : t ∈ Set.Icc 0 H) :
    |E t| ≤ C * t ^ (k + 1) / (k + 1) := by
  have hk : ((k : ℝ) + 1) ≠ 0 := by positivity
  have hpoly : ∀ t : ℝ, HasDerivAt (fun t : ℝ => C * t ^ (k + 1) / (k + 1)) (C * t ^ k) t := by
    intro t
    have := ((hasDerivAt_pow (k + 1) t).const_mul C).div_const ((k : ℝ) + 1)
    refine this.congr_deriv ?_
    push_cast
    field_simp
  have key : ∀ s : ℝ, s = 1 ∨ s = -1 → s * E t ≤ C * t ^ (k + 1) / (k + 1) := by
    intro s hs
    have hmono : MonotoneOn (fun t => C * t ^ (k + 1) / (k + 1) - s * E t) (Set.Icc 0 H) := by
      apply monotoneOn_of_deriv_nonneg (convex_Icc 0 H)
      · exact (Continuous.continuousOn (by fun_prop)).sub (hc.const_smul s)
      · intro x hx
        rw [interior_Icc] at hx
        exact ((hpoly x).sub ((hd x hx).const_mul s)).differentiableAt.differentiableWithinAt
      · intro x hx
        rw [interior_Icc] at hx
        have h1 : HasDerivAt (fun t => C * t ^ (k + 1) / (k + 1) - s * E t) (C * x ^ k - s * E' x) x :=
          (hpoly x).sub ((hd x hx).const_mul s)
        rw [h1.deriv]
        have := abs_le.1 (hb x hx)
        rcases hs with rfl | rfl <;> linarith [this.1, this.2]
    have := hmono (Set.left_mem_Icc.2 (ht.1.trans ht.2)) ht ht.1
    simp only [h0] at this
    rw [zero_pow (by omega)] at this
    simp only [mul_zero, zero_div, sub_zero] at this
    linarith
  exact abs_le.2 ⟨by linarith [key (-1) (Or.inr rfl)], by linarith [key 1 (Or.inl rfl)]⟩

/-- a function and its derivative on a closed interval: continuous, differentiable inside -/
structure DerivOn (f f' : ℝ → ℝ) (a b : ℝ) : Prop where
  cont : ContinuousOn f (Set.Icc a b)
  deriv : ∀ x ∈ Set.Ioo a b, HasDerivAt f (f' x) x

theorem DerivOn.mono {f f' : ℝ → ℝ} {a b c d : ℝ} (h : DerivOn f f' a b) (hc : a ≤ c) (hd : d ≤ b) : DerivOn f f' c d :=
  ⟨h.cont.mono (Set.Icc_subset_Icc hc hd), fun x hx => h.deriv x ⟨by linarith [hx.1], by linarith [hx.2]⟩⟩

section panel
variable {m H : ℝ}

theorem DerivOn.even {f f' : ℝ → ℝ} (h : DerivOn f f' (m - H) (m + H)) :
    ContinuousOn (fun t => f (m + t) + f (m - t)) (Set.Icc 0 H) ∧
    ∀ t ∈ Set.Ioo 0 H, HasDerivAt (fun t => f (m + t) + f (m - t)) (f' (m + t) - f' (m - t)) t := by
  constructor
  · apply ContinuousOn.add
    · apply h.cont.comp (by fun_prop)
      intro t ht; constructor <;> linarith [ht.1, ht.2]
    · apply h.cont.comp (by fun_prop)
      intro t ht; constructor <;> linarith [ht.1, ht.2]
  · intro t ht
    have h1 := (h.deriv (m + t) ⟨by linarith [ht.1, ht.2], by linarith [ht.2]⟩).comp_const_add m t
    have h2 := (h.deriv (m - t) ⟨by linarith [ht.2], by linarith [ht.1, ht.2]⟩).comp_const_sub m t
    exact (h1.add h2).congr_deriv (by ring)

theorem DerivOn.odd {f f' : ℝ → ℝ} (h : DerivOn f f' (m - H) (m + H)) :
    ContinuousOn (fun t => f (m + t) - f (m - t)) (Set.Icc 0 H) ∧
    ∀ t ∈ Set.Ioo 0 H, HasDerivAt (fun t => f (m + t) - f (m - t)) (f' (m + t) + f' (m - t)) t := by
  constructor
  · apply ContinuousOn.sub
    · apply h.cont.comp (by fun_prop)
      intro t ht; constructor <;> linarith [ht.1, ht.2]
    · apply h.cont.comp (by fun_prop)
      intro t ht; constructor <;> linarith [ht.1, ht.2]
  · intro t ht
    have h1 := (h.deriv (m + t) ⟨by linarith [ht.1, ht.2], by linarith [ht.2]⟩).comp_const_add m t
    have h2 := (h.deriv (m - t) ⟨by linarith [ht.2], by linarith [ht.1, ht.2]⟩).comp_const_sub m t
    exact (h1.sub h2).congr_deriv (by ring)

/-- difference of values at `m ± t` -/
theorem DerivOn.diff_le {f f' : ℝ → ℝ} {K : ℝ} (h : DerivOn f f' (m - H) (m + H)) (hK : ∀ x ∈ Set.Ioo (m - H) (m + H), |f' x| ≤ K)
    {t : ℝ} (ht : t ∈ Set.Icc 0 H) : |f (m + t) - f (m - t)| ≤ 2 * K * t := by
  have := abs_le_of_deriv_bound (k := 0) (C := 2 * K) (by simp) h.odd.1 h.odd.2 (by
    intro s hs
    refine (abs_add_le _ _).trans ?_
    have e1 := hK (m + s) ⟨by linarith [hs.1, hs.2], by linarith [hs.2]⟩
    have e2 := hK (m - s) ⟨by linarith [hs.2], by linarith [hs.1, hs.2]⟩
    simp; linarith) ht
  simpa using this

/-- the integral over the growing symmetric panel -/
theorem panel_integral {f : ℝ → ℝ} (hf : ContinuousOn f (Set.Icc (m - H) (m + H))) :
    ContinuousOn (fun t => ∫ x in (m - t)..(m + t), f x) (Set.Icc 0 H) ∧
    ∀ t ∈ Set.Ioo 0 H, HasDerivAt (fun t => ∫ x in (m - t)..(m + t), f x) (f (m + t) + f (m - t)) t := by
  rcases lt_or_ge H 0 with hH | hH
  · constructor
    · rw [Set.Icc_eq_empty (by linarith)]; exact continuousOn_empty _
    · intro t ht; exact absurd (ht.1.trans ht.2) (by linarith)
  -- continuous extension
  set g : ℝ → ℝ := Set.IccExtend (by linarith : m - H ≤ m + H) (Set.domRestrict _ f) with hg
  have hgc : Continuous g := (continuousOn_iff_continuous_domRestrict.1 hf).Icc_extend'
  have hgf : ∀ x ∈ Set.Icc (m - H) (m + H), g x = f x := by
    intro x hx; rw [hg, Set.IccExtend_of_mem _ _ hx]; rfl
  have hint : ∀ t ∈ Set.Icc 0 H, ∫ x in (m - t)..(m + t), f x = (∫ x in (0:ℝ)..(m + t), g x) - ∫ x in (0:ℝ)..(m - t), g x := by
    intro t ht
    rw [integral_interval_sub_left (hgc.intervalIntegrable _ _) (hgc.intervalIntegrable _ _)]
    apply integral_congr
    intro x hx
    rw [Set.uIcc_of_le (by linarith [ht.1])] at hx
    exact (hgf x ⟨by linarith [hx.1, ht.2], by linarith [hx.2, ht.2]⟩).symm
  have hder : ∀ t, HasDerivAt (fun t => (∫ x in (0:ℝ)..(m + t), g x) - ∫ x in (0:ℝ)..(m - t), g x) (g (m + t) + g (m - t)) t := by
    intro t
    have h1 := (hgc.integral_hasStrictDerivAt 0 (m + t)).hasDerivAt.comp_const_add m t
    have h2 := (hgc.integral_hasStrictDerivAt 0 (m - t)).hasDerivAt.comp_const_sub m t
    exact (h1.sub h2).congr_deriv (by ring)
  constructor
  · have : Continuous (fun t => (∫ x in (0:ℝ)..(m + t), g x) - ∫ x in (0:ℝ)..(m - t), g x) :=
      continuous_iff_continuousAt.2 fun t => (hder t).continuousAt
    exact this.continuousOn.congr hint
  · intro t ht
    have h1 := hder t
    rw [hgf _ ⟨by linarith [ht.1, ht.2], by linarith [ht.2]⟩, hgf _ ⟨by linarith [ht.2], by linarith [ht.1, ht.2]⟩] at h1
    refine h1.congr_of_eventuallyEq ?_
    filter_upwards [isOpen_Ioo.mem_nhds ht] with s hs
    exact hint s ⟨hs.1.le, hs.2.le⟩

/-- midpoint rule on one panel of width `2H` -/
theorem midpoint_panel {f f₁ f₂ : ℝ → ℝ} {K : ℝ} (hH : 0 ≤ H) (h : DerivOn f f₁ (m - H) (m + H)) (h₁ : DerivOn f₁ f₂ (m - H) (m + H))
    (hK : ∀ x ∈ Set.Ioo (m - H) (m + H), |f₂ x| ≤ K) :
    |(∫ x in (m - H)..(m + H), f x) - 2 * H * f m| ≤ K * H ^ 3 / 3 := by
  have hp := panel_integral h.cont
  have hsecond : ∀ t ∈ Set.Icc 0 H, |f (m + t) + f (m - t) - 2 * f m| ≤ K * t ^ 2 := by
    intro t ht
    have := abs_le_of_deriv_bound (E := fun t => f (m + t) + f (m - t) - 2 * f m) (k := 1) (C := 2 * K) (by simp; ring)
      (h.even.1.sub continuousOn_const)
      (fun s hs => (h.even.2 s hs).sub_const _) (fun s hs => by
        rw [pow_one]; exact h₁.diff_le hK ⟨hs.1.le, hs.2.le⟩) ht
    norm_num at this
    calc _ ≤ 2 * K * t ^ 2 / 2 := this
      _ = _ := by ring
  have := abs_le_of_deriv_bound (E := fun t => (∫ x in (m - t)..(m + t), f x) - 2 * t * f m) (k := 2) (C := K) (by simp)
    (hp.1.sub (Continuous.continuousOn (by fun_prop)))
    (fun s hs => (hp.2 s hs).sub (((hasDerivAt_id s).const_mul 2).mul_const (f m)))
    (fun s hs => by simpa using hsecond s ⟨hs.1.le, hs.2.le⟩) (Set.right_mem_Icc.2 hH)
  norm_num at this
  exact this

/-- trapezoid rule on one panel of width `2H` -/
theorem trapezoid_panel {f f₁ f₂ : ℝ → ℝ} {K : ℝ} (hH : 0 ≤ H) (h : DerivOn f f₁ (m - H) (m + H))
    (h₁ : DerivOn f₁ f₂ (m - H) (m + H)) (hK : ∀ x ∈ Set.Ioo (m - H) (m + H), |f₂ x| ≤ K) :
    |(∫ x in (m - H)..(m + H), f x) - H * (f (m + H) + f (m - H))| ≤ 2 * K * H ^ 3 / 3 := by
  have hp := panel_integral h.cont
  have := abs_le_of_deriv_bound (E := fun t => (∫ x in (m - t)..(m + t), f x) - t * (f (m + t) + f (m - t))) (k := 2) (C := 2 * K)
    (E' := fun t => -(t * (f₁ (m + t) - f₁ (m - t)))) (by simp)
    (hp.1.sub (continuousOn_id.mul h.even.1))
    (fun s hs => ((hp.2 s hs).sub ((hasDerivAt_id s).mul (h.even.2 s hs))).congr_deriv (by simp))
    (fun s hs => by
      rw [abs_neg, abs_mul, abs_of_pos hs.1]
      have := h₁.diff_le hK ⟨hs.1.le, hs.2.le⟩
      nlinarith [hs.1]) (Set.right_mem_Icc.2 hH)
  norm_num at this
  exact this

/-- Simpson's rule on one panel of width `2H` -/
theorem simpson_panel {f f₁ f₂ f₃ f₄ : ℝ → ℝ} {K : ℝ} (hH : 0 ≤ H) (h : DerivOn f f₁ (m - H) (m + H))
    (h₁ : DerivOn f₁ f₂ (m - H) (m + H)) (h₂ : DerivOn f₂ f₃ (m - H) (m + H)) (h₃ : DerivOn f₃ f₄ (m - H) (m + H))
    (hK : ∀ x ∈ Set.Ioo (m - H) (m + H), |f₄ x| ≤ K) :
    |(∫ x in (m - H)..(m + H), f x) - H / 3 * (f (m + H) + 4 * f m + f (m - H))| ≤ K * H ^ 5 / 90 := by
  have hp := panel_integral h.cont
  -- third derivative of the error
  have s3 : ∀ t ∈ Set.Icc 0 H, |1 / 3 * (f₁ (m + t) - f₁ (m - t)) - t / 3 * (f₂ (m + t) + f₂ (m - t))| ≤ 2 / 9 * K * t ^ 3 := by
    intro t ht
    have := abs_le_of_deriv_bound
      (E := fun t => 1 / 3 * (f₁ (m + t) - f₁ (m - t)) - t / 3 * (f₂ (m + t) + f₂ (m - t))) (k := 2) (C := 2 / 3 * K)
      (E' := fun t => -(t / 3 * (f₃ (m + t) - f₃ (m - t)))) (by simp)
      ((continuousOn_const.mul h₁.odd.1).sub ((Continuous.continuousOn (by fun_prop)).mul h₂.even.1))
      (fun s hs => (((h₁.odd.2 s hs).const_mul (1 / 3)).sub (((hasDerivAt_id s).div_const 3).mul (h₂.even.2 s hs))).congr_deriv
        (by simp))
      (fun s hs => by
        rw [abs_neg, abs_mul, abs_of_pos (by linarith [hs.1] : 0 < s / 3)]
        have := h₃.diff_le hK ⟨hs.1.le, hs.2.le⟩
        nlinarith [hs.1]) ht
    norm_num at this
    calc _ ≤ 2 / 3 * K * t ^ 3 / 3 := by simpa using this
      _ = _ := by ring
  have s2 : ∀ t ∈ Set.Icc 0 H,
      |2 / 3 * (f (m + t) + f (m - t)) - 4 / 3 * f m - t / 3 * (f₁ (m + t) - f₁ (m - t))| ≤ 1 / 18 * K * t ^ 4 := by
    intro t ht
    have := abs_le_of_deriv_bound
      (E := fun t => 2 / 3 * (f (m + t) + f (m - t)) - 4 / 3 * f m - t / 3 * (f₁ (m + t) - f₁ (m - t))) (k := 3) (C := 2 / 9 * K)
      (E' := fun t => 1 / 3 * (f₁ (m + t) - f₁ (m - t)) - t / 3 * (f₂ (m + t) + f₂ (m - t))) (by simp; ring)
      (((continuousOn_const.mul h.even.1).sub continuousOn_const).sub ((Continuous.continuousOn (by fun_prop)).mul h₁.odd.1))
      (fun s hs => ((((h.even.2 s hs).const_mul (2 / 3)).sub_const (4 / 3 * f m)).sub
        (((hasDerivAt_id s).div_const 3).mul (h₁.odd.2 s hs))).congr_deriv (by simp; ring))
      (fun s hs => s3 s ⟨hs.1.le, hs.2.le⟩) ht
    norm_num at this
    calc _ ≤ 2 / 9 * K * t ^ 4 / 4 := by simpa using this
      _ = _ := by ring
  have := abs_le_of_deriv_bound
    (E := fun t => (∫ x in (m - t)..(m + t), f x) - (t / 3 * (f (m + t) + f (m - t)) + t / 3 * (4 * f m))) (k := 4) (C := 1 / 18 * K)
    (E' := fun t => 2 / 3 * (f (m + t) + f (m - t)) - 4 / 3 * f m - t / 3 * (f₁ (m + t) - f₁ (m - t))) (by simp)
    (hp.1.sub (((Continuous.continuousOn (by fun_prop)).mul h.even.1).add (Continuous.continuousOn (by fun_prop))))
    (fun s hs => ((hp.2 s hs).sub ((((hasDerivAt_id s).div_const 3).mul (h.even.2 s hs)).add
      (((hasDerivAt_id s).div_const 3).mul_const (4 * f m)))).congr_deriv (by simp; ring))
    (fun s hs => s2 s ⟨hs.1.le, hs.2.le⟩) (Set.right_mem_Icc.2 hH)
  norm_num at this
  calc _ = |(∫ x in (m - H)..(m + H), f x) - (H / 3 * (f (m + H) + f (m - H)) + H / 3 * (4 * f m))| := by
        congr 1; ring
    _ ≤ 1 / 18 * K * H ^ 5 / 5 := by simpa using this
    _ = _ := by ring

end panel

/-- the composite sum: if on every panel `[a+i h, a+(i+1) h]` the integral is within `ε` of `g i`, the total is within `n ε` -/
theorem composite_error {f : ℝ → ℝ} {a b : ℝ} (hab : a ≤ b) (hf : ContinuousOn f (Set.Icc a b)) {n : ℕ} (hn : 0 < n) {g : ℕ → ℝ} {ε : ℝ}
    (h : ∀ i < n, |(∫ x in (a + i * ((b - a) / n))..(a + (i + 1) * ((b - a) / n)), f x) - g i| ≤ ε) :
    |(∫ x in a..b, f x) - ∑ i ∈ Finset.range n, g i| ≤ n * ε := by
  have hn' : (0 : ℝ) < n := by exact_mod_cast hn
  have hmem : ∀ k : ℕ, k ≤ n → a + k * ((b - a) / n) ∈ Set.Icc a b := by
    intro k hk
    have hk' : (k : ℝ) ≤ n := by exact_mod_cast hk
    have h0 : 0 ≤ (b - a) / n := div_nonneg (by linarith) hn'.le
    have hmul : (n : ℝ) * ((b - a) / n) = b - a := mul_div_cancel₀ _ hn'.ne'
    constructor <;> nlinarith [mul_nonneg (Nat.cast_nonneg (α := ℝ) k) h0]
  have hsum := sum_integral_adjacent_intervals (μ := volume) (f := f) (a := fun k : ℕ => a + k * ((b - a) / n)) (n := n) (by
    intro k hk
    apply ContinuousOn.intervalIntegrable
    apply hf.mono
    exact Set.uIcc_subset_Icc (hmem k (by omega)) (hmem (k + 1) (by omega)))
  have e0 : a + ((0 : ℕ) : ℝ) * ((b - a) / n) = a := by simp
  have en : a + (n : ℝ) * ((b - a) / n) = b := by rw [mul_div_cancel₀ _ hn'.ne']; ring
  rw [e0, en] at hsum
  rw [← hsum, ← Finset.sum_sub_distrib]
  refine (Finset.abs_sum_le_sum_abs _ _).trans ?_
  calc _ ≤ ∑ i ∈ Finset.range n, ε := by
        apply Finset.sum_le_sum
        intro i hi
        have := h i (Finset.mem_range.1 hi)
        push_cast
        exact this
    _ = n * ε := by simp

end GaussQuad
