import Mathlib.Analysis.Calculus.Deriv.MeanValue
import Mathlib.Analysis.SpecialFunctions.Trigonometric.Deriv
import Mathlib.Analysis.SpecialFunctions.Trigonometric.Bounds

/-!
# Sturm comparison with a harmonic oscillator

`u'' = -q u`: an interval of length `π / ω` on which `q ≥ ω²` contains a zero of `u`, and two zeros between which `q < ω²` are at least `π / ω` apart.
-/

namespace GaussQuad

variable {u u' q : ℝ → ℝ} {a b ω : ℝ}

/-- derivative of the Wronskian of `u` and `sin (ω (x - a))` -/
theorem wronskian_deriv {x : ℝ} (hu : HasDerivAt u (u' x) x) (hu' : HasDerivAt u' (-(q x * u x)) x) :
    HasDerivAt (fun x => u' x * Real.sin (ω * (x - a)) - u x * (ω * Real.cos (ω * (x - a)))) ((ω ^ 2 - q x) * (u x * Real.sin (ω * (x - a)))) x := by
  have h0 : HasDerivAt (fun x => ω * (x - a)) ω x := by simpa using ((hasDerivAt_id x).sub_const a).const_mul ω
  refine ((hu'.mul h0.sin).sub (hu.mul (h0.cos.const_mul ω))).congr_deriv ?_
  ring

theorem sin_pos_between (hω : 0 < ω) {x : ℝ} (h1 : a < x) (h2 : x < a + Real.pi / ω) : 0 < Real.sin (ω * (x - a)) := by
  refine Real.sin_pos_of_pos_of_lt_pi (by nlinarith) ?_
  have : x - a < Real.pi / ω := by linarith
  rw [lt_div_iff₀ hω] at this
  linarith

/-- a solution that is positive on `(a, a + π/ω]` cannot oscillate as fast as `ω` there -/
theorem sturm_pos (hω : 0 < ω) (hb : b = a + Real.pi / ω) (hu : ∀ x ∈ Set.Icc a b, HasDerivAt u (u' x) x)
    (hu' : ∀ x ∈ Set.Icc a b, HasDerivAt u' (-(q x * u x)) x) (hq : ∀ x ∈ Set.Ioo a b, ω ^ 2 ≤ q x) : ¬ ∀ x ∈ Set.Ioc a b, 0 < u x := by
  intro hpos
  have hpi := Real.pi_pos
  have hab : a < b := by rw [hb]; have : 0 < Real.pi / ω := by positivity
                         linarith
  have h : AntitoneOn (fun x => u' x * Real.sin (ω * (x - a)) - u x * (ω * Real.cos (ω * (x - a)))) (Set.Icc a b) := by
    refine antitoneOn_of_deriv_nonpos (convex_Icc a b) (fun x hx => (wronskian_deriv (hu x hx) (hu' x hx)).continuousAt.continuousWithinAt) ?_ ?_
    · intro x hx
      have hx' := interior_subset hx
      exact (wronskian_deriv (hu x hx') (hu' x hx')).differentiableAt.differentiableWithinAt
    · intro x hx
      have hx' := interior_subset hx
      rw [interior_Icc] at hx
      rw [(wronskian_deriv (hu x hx') (hu' x hx')).deriv]
      have h1 := sin_pos_between hω hx.1 (hb ▸ hx.2)
      have h2 := hpos x ⟨hx.1, hx.2.le⟩
      have h3 := hq x hx
      exact mul_nonpos_of_nonpos_of_nonneg (by linarith) (by positivity)
  have h1 := h (Set.left_mem_Icc.2 hab.le) (Set.right_mem_Icc.2 hab.le) hab.le
  have hωb : ω * (b - a) = Real.pi := by rw [hb]; field_simp; ring
  simp only [hωb, sub_self, mul_zero, Real.sin_zero, Real.cos_zero, Real.sin_pi, Real.cos_pi] at h1
  have h2 := hpos b ⟨hab, le_rfl⟩
  have h3 : 0 ≤ u a := by
    have hc : Filter.Tendsto u (nhdsWithin a (Set.Ioi a)) (nhds (u a)) := (hu a (Set.left_mem_Icc.2 hab.le)).continuousAt.continuousWithinAt
    refine ge_of_tendsto hc ?_
    filter_upwards [Ioc_mem_nhdsGT hab] with x hx
    exact (hpos x hx).le
  nlinarith [mul_pos hω h2, mul_nonneg hω.le h3]

/-- a continuous function without zeros on an interval has one sign there -/
theorem one_sign {f : ℝ → ℝ} {s : Set ℝ} (hs : s.OrdConnected) (hf : ContinuousOn f s) (h : ∀ x ∈ s, f x ≠ 0) : (∀ x ∈ s, 0 < f x) ∨ ∀ x ∈ s, f x < 0 := by
  by_contra hcon
  push Not at hcon
  obtain ⟨⟨x, hx, h1⟩, y, hy, h2⟩ := hcon
  have hsub : Set.uIcc x y ⊆ s := hs.uIcc_subset hx hy
  have := intermediate_value_uIcc (hf.mono hsub)
  obtain ⟨z, hz, h0⟩ := this (Set.mem_uIcc.2 (Or.inl ⟨h1, h2⟩) : (0 : ℝ) ∈ Set.uIcc (f x) (f y))
  exact h z (hsub hz) h0

/-- every half-open interval of length `π / ω` on which `q ≥ ω²` contains a zero -/
theorem sturm_zero (hω : 0 < ω) (hb : b = a + Real.pi / ω) (hu : ∀ x ∈ Set.Icc a b, HasDerivAt u (u' x) x)
    (hu' : ∀ x ∈ Set.Icc a b, HasDerivAt u' (-(q x * u x)) x) (hq : ∀ x ∈ Set.Ioo a b, ω ^ 2 ≤ q x) : ∃ x ∈ Set.Ioc a b, u x = 0 := by
  by_contra hcon
  push Not at hcon
  rcases one_sign Set.ordConnected_Ioc (fun x hx => (hu x (Set.Ioc_subset_Icc_self hx)).continuousAt.continuousWithinAt) hcon with h | h
  · exact sturm_pos hω hb hu hu' hq h
  · refine sturm_pos (u := fun x => -u x) (u' := fun x => -u' x) (q := q) hω hb (fun x hx => (hu x hx).neg) (fun x hx => ?_) hq (fun x hx => neg_pos.2 (h x hx))
    refine (hu' x hx).neg.congr_deriv ?_
    ring

/-- the same with the other end left out -/
theorem sturm_zero_left (hω : 0 < ω) (hb : b = a + Real.pi / ω) (hu : ∀ x ∈ Set.Icc a b, HasDerivAt u (u' x) x)
    (hu' : ∀ x ∈ Set.Icc a b, HasDerivAt u' (-(q x * u x)) x) (hq : ∀ x ∈ Set.Ioo a b, ω ^ 2 ≤ q x) : ∃ x ∈ Set.Ico a b, u x = 0 := by
  obtain ⟨x, hx, h⟩ := sturm_zero (u := fun x => u (-x)) (u' := fun x => -u' (-x)) (q := fun x => q (-x)) (a := -b) (b := -a) hω (by rw [hb]; ring)
    (fun x hx => ((hu (-x) ⟨by linarith [hx.2], by linarith [hx.1]⟩).comp x (hasDerivAt_neg x)).congr_deriv (by ring))
    (fun x hx => ((hu' (-x) ⟨by linarith [hx.2], by linarith [hx.1]⟩).comp x (hasDerivAt_neg x)).neg.congr_deriv (by ring))
    (fun x hx => hq (-x) ⟨by linarith [hx.2], by linarith [hx.1]⟩)
  exact ⟨-x, ⟨by linarith [hx.2], by linarith [hx.1]⟩, h⟩

/-- a solution that is positive between two zeros at which `q < ω²` needs at least the length `π / ω` for it -/
theorem sturm_gap_pos (hω : 0 < ω) (hab : a < b) (hu : ∀ x ∈ Set.Icc a b, HasDerivAt u (u' x) x)
    (hu' : ∀ x ∈ Set.Icc a b, HasDerivAt u' (-(q x * u x)) x) (hq : ∀ x ∈ Set.Ioo a b, q x < ω ^ 2) (ha : u a = 0) (hb : u b = 0)
    (hpos : ∀ x ∈ Set.Ioo a b, 0 < u x) : Real.pi / ω ≤ b - a := by
  by_contra hlt
  push Not at hlt
  have hs : ∀ x ∈ Set.Ioc a b, 0 < Real.sin (ω * (x - a)) := fun x hx => sin_pos_between hω hx.1 (by linarith [hx.2])
  have h : StrictMonoOn (fun x => u' x * Real.sin (ω * (x - a)) - u x * (ω * Real.cos (ω * (x - a)))) (Set.Icc a b) := by
    refine strictMonoOn_of_deriv_pos (convex_Icc a b) (fun x hx => (wronskian_deriv (hu x hx) (hu' x hx)).continuousAt.continuousWithinAt) ?_
    intro x hx
    have hx' := interior_subset hx
    rw [interior_Icc] at hx
    rw [(wronskian_deriv (hu x hx') (hu' x hx')).deriv]
    exact mul_pos (by linarith [hq x hx]) (mul_pos (hpos x hx) (hs x ⟨hx.1, hx.2.le⟩))
  have h1 := h (Set.left_mem_Icc.2 hab.le) (Set.right_mem_Icc.2 hab.le) hab
  simp only [ha, hb, sub_self, mul_zero, Real.sin_zero, zero_mul, sub_zero] at h1
  have h2 : 0 < u' b := by
    by_contra hn
    have := mul_nonpos_of_nonpos_of_nonneg (not_lt.1 hn) (hs b ⟨hab, le_rfl⟩).le
    linarith
  have h3 : ∀ᶠ x in nhdsWithin b (Set.Iio b), 0 < slope u b x :=
    ((hasDerivAt_iff_tendsto_slope.1 (hu b (Set.right_mem_Icc.2 hab.le))).mono_left (nhdsWithin_mono b fun x hx => ne_of_lt hx)).eventually (lt_mem_nhds h2)
  obtain ⟨x, hx, hx'⟩ := (h3.and (Ioo_mem_nhdsLT hab)).exists
  rw [slope_def_field, hb, sub_zero] at hx
  have := div_neg_of_pos_of_neg (hpos x hx') (sub_neg.2 hx'.2)
  linarith

/-- neighbouring zeros between which `q < ω²` are at least `π / ω` apart -/
theorem sturm_gap (hω : 0 < ω) (hab : a < b) (hu : ∀ x ∈ Set.Icc a b, HasDerivAt u (u' x) x)
    (hu' : ∀ x ∈ Set.Icc a b, HasDerivAt u' (-(q x * u x)) x) (hq : ∀ x ∈ Set.Ioo a b, q x < ω ^ 2) (ha : u a = 0) (hb : u b = 0)
    (hne : ∀ x ∈ Set.Ioo a b, u x ≠ 0) : Real.pi / ω ≤ b - a := by
  rcases one_sign Set.ordConnected_Ioo (fun x hx => (hu x (Set.Ioo_subset_Icc_self hx)).continuousAt.continuousWithinAt) hne with h | h
  · exact sturm_gap_pos hω hab hu hu' hq ha hb h
  · refine sturm_gap_pos (u := fun x => -u x) (u' := fun x => -u' x) (q := q) hω hab (fun x hx => (hu x hx).neg) (fun x hx => ?_) hq (by simp [ha]) (by simp [hb])
      (fun x hx => neg_pos.2 (h x hx))
    refine (hu' x hx).neg.congr_deriv ?_
    ring

end GaussQuad
