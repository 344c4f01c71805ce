import Verif.Props.FloatRobust
import Verif.Props.ChebyshevF64Integral
import Mathlib.MeasureTheory.Function.JacobianOneDim
import Mathlib.MeasureTheory.Integral.IntervalIntegral.Basic
import Mathlib.MeasureTheory.Integral.DominatedConvergence
import Mathlib.Analysis.SpecialFunctions.Integrals.Basic

/-!
# C91: integrands with a singularity at an end of the interval

The midpoint rule and the Gauss-Chebyshev rule of the first kind never call the integrand at the ends of the interval, so the integrand may be unbounded there.
For an integrand that is monotone up to such an end the error is at most the integral of the integrand (minus its value at the other end) between the end and the nearest node, and so goes to zero.
The trapezoid and Simpson rules do call the integrand at both ends: if it returns an infinity or NaN there, so do they.
`/repo/src/midpoint/mod.rs` l.76-103, `/repo/src/chebyshev/mod.rs` l.95-119, `/repo/src/trapezoid/mod.rs` l.74-104, `/repo/src/simpson/mod.rs` l.68-136.
-/

namespace GaussQuad.Props
open Spec FloatOps MeasureTheory Set intervalIntegral

/-- an antitone function on a half-open interval, integrable: on a subinterval the integral lies between the lengths times the end values -/
theorem antitone_panel {f : ℝ → ℝ} {a b u v : ℝ} (hf : AntitoneOn f (Ioc a b)) (hi : IntervalIntegrable f volume a b) (hau : a ≤ u) (huv : u ≤ v) (hvb : v ≤ b) :
    (v - u) * f v ≤ ∫ x in u..v, f x ∧ (a < u → ∫ x in u..v, f x ≤ (v - u) * f u) := by
  have hab : a ≤ b := hau.trans (huv.trans hvb)
  have hi' : IntervalIntegrable f volume u v := hi.mono_set (by rw [uIcc_of_le huv, uIcc_of_le hab]; exact Icc_subset_Icc hau hvb)
  constructor
  · rcases huv.eq_or_lt with rfl | h
    · simp
    rw [show (v - u) * f v = ∫ _ in u..v, f v by simp]
    refine integral_mono_on_of_le_Ioo huv (by simp) hi' fun x hx => ?_
    exact hf ⟨hau.trans_lt hx.1, hx.2.le.trans hvb⟩ ⟨hau.trans_lt h, hvb⟩ hx.2.le
  · intro hau'
    rw [show (v - u) * f u = ∫ _ in u..v, f u by simp]
    refine integral_mono_on_of_le_Ioo huv hi' (by simp) fun x hx => ?_
    exact hf ⟨hau', huv.trans hvb⟩ ⟨hau'.trans hx.1, hx.2.le.trans hvb⟩ hx.1.le

/-- the midpoint sum with `N` panels -/
noncomputable def midSum (N : ℕ) (a b : ℝ) (f : ℝ → ℝ) : ℝ := (b - a) / N * ∑ i ∈ Finset.range N, f (a + (i + 1 / 2) * ((b - a) / N))

theorem midSum_antitone {N : ℕ} (hN : 0 < N) {f : ℝ → ℝ} {a b : ℝ} (hab : a < b) (hf : AntitoneOn f (Ioc a b)) (hi : IntervalIntegrable f volume a b) :
    |midSum N a b f - ∫ x in a..b, f x| ≤ ∫ x in a..(a + (b - a) / N / 2), (f x - f b) := by
  obtain ⟨n, hn⟩ : ∃ n, N = n + 1 := ⟨N - 1, by omega⟩
  rw [midSum, hn]
  set h := (b - a) / ((n + 1 : ℕ) : ℝ) with hh
  have hpos : 0 < h := div_pos (sub_pos.2 hab) (by positivity)
  have hb : b = a + (n + 1) * h := by rw [hh]; push_cast; field_simp; ring
  set m : ℕ → ℝ := fun i => a + (i + 1 / 2) * h with hm
  have hma : ∀ i, a + h / 2 ≤ m i := fun i => by
    have : 0 ≤ (i : ℝ) * h := by positivity
    simp only [hm]; nlinarith
  have hmb : ∀ i, i ≤ n → m i ≤ b - h / 2 := fun i hin => by
    have : (i : ℝ) * h ≤ n * h := by gcongr
    simp only [hm]; rw [hb]; nlinarith
  have hms : ∀ i, m (i + 1) = m i + h := fun i => by simp only [hm]; push_cast; ring
  have hII : ∀ u v, a ≤ u → u ≤ v → v ≤ b → IntervalIntegrable f volume u v := fun u v h1 h2 h3 =>
    hi.mono_set (by rw [uIcc_of_le h2, uIcc_of_le hab.le]; exact Icc_subset_Icc h1 h3)
  have key : ∀ k ≤ n, h * ∑ i ∈ Finset.range k, f (m (i + 1)) ≤ ∫ x in m 0..m k, f x ∧ ∫ x in m 0..m k, f x ≤ h * ∑ i ∈ Finset.range k, f (m i) := by
    intro k
    induction k with
    | zero => intro _; simp
    | succ k ih =>
      intro hk
      obtain ⟨i1, i2⟩ := ih (by omega)
      have hk0 : m 0 ≤ m k := by
        have : 0 ≤ (k : ℝ) * h := by positivity
        simp only [hm]; push_cast; nlinarith
      have l1 : a ≤ m 0 := by linarith [hma 0]
      have l2 : a < m k := by linarith [hma k]
      have l3 : m (k + 1) ≤ b := by linarith [hmb (k + 1) hk]
      have l4 : m k ≤ m (k + 1) := by rw [hms]; linarith
      rw [← integral_add_adjacent_intervals (hII _ _ l1 hk0 (l4.trans l3)) (hII _ _ l2.le l4 l3), Finset.sum_range_succ, Finset.sum_range_succ]
      obtain ⟨p1, p2⟩ := antitone_panel hf hi l2.le l4 l3
      have p2 := p2 l2
      rw [hms k, add_sub_cancel_left] at p1 p2
      rw [hms k]
      constructor <;> nlinarith
  obtain ⟨k1, k2⟩ := key n le_rfl
  have e0 : m 0 = a + h / 2 := by simp only [hm]; push_cast; ring
  have en : m n = b - h / 2 := by simp only [hm]; rw [hb]; ring
  have hmn : m 0 ≤ m n := by
    have : 0 ≤ (n : ℝ) * h := by positivity
    simp only [hm]; push_cast; nlinarith
  have lb : m n ≤ b := by linarith
  have la : a ≤ m 0 := by linarith
  obtain ⟨q1, -⟩ := antitone_panel hf hi le_rfl la (hmn.trans lb)
  obtain ⟨q2, q3⟩ := antitone_panel hf hi (la.trans hmn) lb le_rfl
  have q3 := q3 (by linarith)
  have split : ∫ x in a..b, f x = (∫ x in a..m 0, f x) + (∫ x in m 0..m n, f x) + ∫ x in m n..b, f x := by
    rw [integral_add_adjacent_intervals (hII _ _ le_rfl la (hmn.trans lb)) (hII _ _ la hmn lb), integral_add_adjacent_intervals (hII _ _ le_rfl (la.trans hmn) lb) (hII _ _ (la.trans hmn) lb le_rfl)]
  have er : ∫ x in a..(a + h / 2), (f x - f b) = (∫ x in a..m 0, f x) - h / 2 * f b := by
    rw [← e0, integral_sub (hII _ _ le_rfl la (hmn.trans lb)) (by simp)]
    simp [e0]
  have s1 : ∑ i ∈ Finset.range (n + 1), f (a + ((i : ℝ) + 1 / 2) * h) = (∑ i ∈ Finset.range n, f (m (i + 1))) + f (m 0) := by
    rw [Finset.sum_range_succ']
  have s2 : ∑ i ∈ Finset.range (n + 1), f (a + ((i : ℝ) + 1 / 2) * h) = (∑ i ∈ Finset.range n, f (m i)) + f (m n) := by
    rw [Finset.sum_range_succ]
  have a1 : h / 2 * f (m 0) ≤ ∫ x in a..m 0, f x := by rw [show m 0 - a = h / 2 by rw [e0]; ring] at q1; exact q1
  have a2 : h / 2 * f b ≤ ∫ x in m n..b, f x := by rw [show b - m n = h / 2 by rw [en]; ring] at q2; exact q2
  have a3 : ∫ x in m n..b, f x ≤ h / 2 * f (m n) := by rw [show b - m n = h / 2 by rw [en]; ring] at q3; exact q3
  have a4 : f b ≤ f (m n) := hf ⟨by linarith, lb⟩ ⟨hab, le_rfl⟩ lb
  rw [er, split, abs_le]
  constructor
  · rw [s2]; nlinarith
  · rw [s1]; nlinarith

theorem midSum_reflect (N : ℕ) (a b : ℝ) (f : ℝ → ℝ) : midSum N a b (fun x => f (a + b - x)) = midSum N a b f := by
  rcases N.eq_zero_or_pos with rfl | hN
  · simp [midSum]
  unfold midSum
  rw [← Finset.sum_range_reflect]
  congr 1
  refine Finset.sum_congr rfl fun i hi => ?_
  rw [Finset.mem_range] at hi
  have : ((N - 1 - i : ℕ) : ℝ) = N - 1 - i := by rw [Nat.cast_sub (by omega), Nat.cast_sub (by omega)]; simp
  have hN' : (N : ℝ) ≠ 0 := by positivity
  rw [this]; congr 1; field_simp; ring

theorem midSum_neg (N : ℕ) (a b : ℝ) (f : ℝ → ℝ) : midSum N a b (fun x => -f x) = -midSum N a b f := by
  simp [midSum]

theorem midSum_monotone_left {N : ℕ} (hN : 0 < N) {f : ℝ → ℝ} {a b : ℝ} (hab : a < b) (hf : MonotoneOn f (Ioc a b)) (hi : IntervalIntegrable f volume a b) :
    |midSum N a b f - ∫ x in a..b, f x| ≤ ∫ x in a..(a + (b - a) / N / 2), (f b - f x) := by
  have h := midSum_antitone hN hab (f := fun x => -f x) (fun x hx y hy hxy => neg_le_neg (hf hx hy hxy)) hi.neg
  rw [midSum_neg, intervalIntegral.integral_neg, ← abs_neg] at h
  convert h using 2
  · ring
  · ext x; ring

theorem midSum_monotone_right {N : ℕ} (hN : 0 < N) {f : ℝ → ℝ} {a b : ℝ} (hab : a < b) (hf : MonotoneOn f (Ico a b)) (hi : IntervalIntegrable f volume a b) :
    |midSum N a b f - ∫ x in a..b, f x| ≤ ∫ x in (b - (b - a) / N / 2)..b, (f x - f a) := by
  have h := midSum_antitone hN hab (f := fun x => f (a + b - x)) (fun x hx y hy hxy => hf ⟨by linarith [hy.2], by linarith [hy.1]⟩ ⟨by linarith [hx.2], by linarith [hx.1]⟩ (by linarith)) (by
    have := (hi.comp_sub_left (a + b)).symm
    simpa using this)
  rw [midSum_reflect, intervalIntegral.integral_comp_sub_left] at h
  simp only [add_sub_cancel_left, add_sub_cancel_right] at h
  refine h.trans (le_of_eq ?_)
  have := intervalIntegral.integral_comp_sub_left (a := a) (b := a + (b - a) / N / 2) (fun x => f x - f a) (a + b)
  simp only [add_sub_cancel_left] at this
  rw [this]
  congr 1
  ring

theorem midSum_antitone_right {N : ℕ} (hN : 0 < N) {f : ℝ → ℝ} {a b : ℝ} (hab : a < b) (hf : AntitoneOn f (Ico a b)) (hi : IntervalIntegrable f volume a b) :
    |midSum N a b f - ∫ x in a..b, f x| ≤ ∫ x in (b - (b - a) / N / 2)..b, (f a - f x) := by
  have h := midSum_monotone_right hN hab (f := fun x => -f x) (fun x hx y hy hxy => neg_le_neg (hf hx hy hxy)) hi.neg
  rw [midSum_neg, intervalIntegral.integral_neg, ← abs_neg] at h
  convert h using 2
  · ring
  · ext x; ring

/-- the bound for a function monotone on `(a, b]` -/
theorem midSum_lower {N : ℕ} (hN : 0 < N) {f : ℝ → ℝ} {a b : ℝ} (hab : a < b) (hf : MonotoneOn f (Ioc a b) ∨ AntitoneOn f (Ioc a b)) (hi : IntervalIntegrable f volume a b) :
    |midSum N a b f - ∫ x in a..b, f x| ≤ ∫ x in a..(a + (b - a) / N / 2), |f x - f b| := by
  have hd : (1 : ℝ) ≤ N := by exact_mod_cast hN
  have hle : (b - a) / N / 2 ≤ b - a := by
    have := div_le_self (sub_pos.2 hab).le hd
    linarith [div_nonneg (sub_pos.2 hab).le (by linarith : (0 : ℝ) ≤ N)]
  have h0 : 0 ≤ (b - a) / N / 2 := by have := (sub_pos.2 hab).le; positivity
  have e : ∀ u : ℝ → ℝ, (∀ x ∈ Ioc a b, u x = |f x - f b|) → (∫ x in a..(a + (b - a) / N / 2), u x) = ∫ x in a..(a + (b - a) / N / 2), |f x - f b| := fun u hu => by
    refine intervalIntegral.integral_congr_ae (ae_of_all _ fun x hx => ?_)
    rw [uIoc_of_le (by linarith)] at hx
    exact hu x ⟨hx.1, by linarith [hx.2]⟩
  rcases hf with hf | hf
  · refine (midSum_monotone_left hN hab hf hi).trans (le_of_eq (e _ fun x hx => ?_))
    rw [abs_of_nonpos (sub_nonpos.2 (hf hx ⟨hab, le_rfl⟩ hx.2))]; ring
  · refine (midSum_antitone hN hab hf hi).trans (le_of_eq (e _ fun x hx => ?_))
    rw [abs_of_nonneg (sub_nonneg.2 (hf hx ⟨hab, le_rfl⟩ hx.2))]

/-- the bound for a function monotone on `[a, b)` -/
theorem midSum_upper {N : ℕ} (hN : 0 < N) {f : ℝ → ℝ} {a b : ℝ} (hab : a < b) (hf : MonotoneOn f (Ico a b) ∨ AntitoneOn f (Ico a b)) (hi : IntervalIntegrable f volume a b) :
    |midSum N a b f - ∫ x in a..b, f x| ≤ ∫ x in (b - (b - a) / N / 2)..b, |f x - f a| := by
  have hd : (1 : ℝ) ≤ N := by exact_mod_cast hN
  have hle : (b - a) / N / 2 ≤ b - a := by
    have := div_le_self (sub_pos.2 hab).le hd
    linarith [div_nonneg (sub_pos.2 hab).le (by linarith : (0 : ℝ) ≤ N)]
  have h0 : 0 ≤ (b - a) / N / 2 := by have := (sub_pos.2 hab).le; positivity
  have e : ∀ u : ℝ → ℝ, (∀ x ∈ Ico a b, u x = |f x - f a|) → (∫ x in (b - (b - a) / N / 2)..b, u x) = ∫ x in (b - (b - a) / N / 2)..b, |f x - f a| := fun u hu => by
    refine intervalIntegral.integral_congr_ae ?_
    filter_upwards [compl_mem_ae_iff.2 (measure_singleton b)] with x hxb hx
    rw [uIoc_of_le (by linarith)] at hx
    exact hu x ⟨by linarith [hx.1], lt_of_le_of_ne hx.2 hxb⟩
  rcases hf with hf | hf
  · refine (midSum_monotone_right hN hab hf hi).trans (le_of_eq (e _ fun x hx => ?_))
    rw [abs_of_nonneg (sub_nonneg.2 (hf ⟨le_rfl, hab⟩ hx hx.1))]
  · refine (midSum_antitone_right hN hab hf hi).trans (le_of_eq (e _ fun x hx => ?_))
    rw [abs_of_nonpos (sub_nonpos.2 (hf ⟨le_rfl, hab⟩ hx hx.1))]; ring

theorem value_midSum (r : NodeRule) (a b : ℝ) (f : ℝ → ℝ) : (AnyRule.midpoint r).value a b f = midSum r.degree a b f := value_midpoint ..

/-- C91 for the midpoint rule: the integrand is monotone and integrable, and may be unbounded at either end (it need not have a value there) -/
theorem C91_midpoint (r : NodeRule) {f : ℝ → ℝ} {a b : ℝ} (hab : a < b) (hi : IntervalIntegrable f volume a b) :
    ((MonotoneOn f (Ioc a b) ∨ AntitoneOn f (Ioc a b)) →
      |(AnyRule.midpoint r).value a b f - ∫ x in a..b, f x| ≤ ∫ x in a..(a + (b - a) / r.degree / 2), |f x - f b|) ∧
    ((MonotoneOn f (Ico a b) ∨ AntitoneOn f (Ico a b)) →
      |(AnyRule.midpoint r).value a b f - ∫ x in a..b, f x| ≤ ∫ x in (b - (b - a) / r.degree / 2)..b, |f x - f a|) := by
  rw [value_midSum]
  exact ⟨fun h => midSum_lower r.pos hab h hi, fun h => midSum_upper r.pos hab h hi⟩

/-- C91: the rate for an integrand that grows like the power `-s` of the distance from the lower end -/
theorem C91_midpoint_power (r : NodeRule) {f : ℝ → ℝ} {a b C s : ℝ} (hab : a < b) (hi : IntervalIntegrable f volume a b) (hs : s < 1)
    (hf : MonotoneOn f (Ioc a b) ∨ AntitoneOn f (Ioc a b)) (hC : ∀ x ∈ Ioc a b, |f x - f b| ≤ C * (x - a) ^ (-s)) :
    |(AnyRule.midpoint r).value a b f - ∫ x in a..b, f x| ≤ C / (1 - s) * ((b - a) / (2 * r.degree)) ^ (1 - s) := by
  refine ((C91_midpoint r hab hi).1 hf).trans ?_
  have hd : (1 : ℝ) ≤ r.degree := by exact_mod_cast r.pos
  set δ := (b - a) / r.degree / 2 with hδ
  have hle : δ ≤ b - a := by
    have := div_le_self (sub_pos.2 hab).le hd
    linarith [div_nonneg (sub_pos.2 hab).le (by linarith : (0 : ℝ) ≤ r.degree)]
  have h0 : 0 ≤ δ := by have := (sub_pos.2 hab).le; positivity
  have hint : IntervalIntegrable (fun x => |f x - f b|) volume a (a + δ) :=
    ((hi.sub (by simp : IntervalIntegrable (fun _ => f b) volume a b)).abs).mono_set (by rw [uIcc_of_le (by linarith), uIcc_of_le hab.le]; exact Icc_subset_Icc le_rfl (by linarith))
  have hp : IntervalIntegrable (fun x : ℝ => x ^ (-s)) volume 0 δ := intervalIntegral.intervalIntegrable_rpow' (by linarith)
  have hp' : IntervalIntegrable (fun x : ℝ => (x - a) ^ (-s)) volume a (a + δ) := by
    have := hp.comp_sub_right a
    simpa [add_comm] using this
  calc ∫ x in a..(a + δ), |f x - f b| ≤ ∫ x in a..(a + δ), C * (x - a) ^ (-s) :=
        integral_mono_on_of_le_Ioo (by linarith) hint (hp'.const_mul C) fun x hx => hC x ⟨hx.1, by linarith [hx.2]⟩
    _ = C / (1 - s) * ((b - a) / (2 * r.degree)) ^ (1 - s) := by
        rw [intervalIntegral.integral_const_mul, intervalIntegral.integral_comp_sub_right (fun x => x ^ (-s)), sub_self, add_sub_cancel_left, integral_rpow (Or.inl (by linarith)),
          Real.zero_rpow (by linarith), hδ, show -s + 1 = 1 - s by ring, show (b - a) / r.degree / 2 = (b - a) / (2 * r.degree) by rw [div_div, mul_comm]]
        ring

/-! The substitution `t = (b - a) / 2 * cos θ + (a + b) / 2`. -/

noncomputable def arc (a b θ : ℝ) : ℝ := (b - a) / 2 * Real.cos θ + (a + b) / 2

theorem arc_image {a b u v : ℝ} (hab : a < b) (hu : 0 ≤ u) (huv : u ≤ v) (hv : v ≤ Real.pi) : arc a b '' Ioo u v = Ioo (arc a b v) (arc a b u) := by
  have hanti : StrictAntiOn (arc a b) (Icc 0 Real.pi) := fun x hx y hy hxy => by
    have := Real.strictAntiOn_cos hx hy hxy
    unfold arc; nlinarith
  ext t
  constructor
  · rintro ⟨x, hx, rfl⟩
    exact ⟨hanti ⟨hu.trans hx.1.le, hx.2.le.trans hv⟩ ⟨hu.trans huv, hv⟩ hx.2, hanti ⟨hu, huv.trans hv⟩ ⟨hu.trans hx.1.le, hx.2.le.trans hv⟩ hx.1⟩
  · intro ht
    have hc : ContinuousOn (arc a b) (Icc u v) := by unfold arc; fun_prop
    exact intermediate_value_Ioo' huv hc ht

theorem arc_deriv (a b : ℝ) (s : Set ℝ) (θ : ℝ) : HasDerivWithinAt (arc a b) ((b - a) / 2 * -Real.sin θ) s θ :=
  (((Real.hasDerivAt_cos θ).const_mul ((b - a) / 2)).add_const ((a + b) / 2)).hasDerivWithinAt

theorem arc_weight {a b θ : ℝ} (hab : a < b) (hθ : θ ∈ Ioo 0 Real.pi) (y : ℝ) :
    |(b - a) / 2 * -Real.sin θ| • (y * (1 / Real.sqrt (1 - ((2 * arc a b θ - a - b) / (b - a)) ^ 2))) = (b - a) / 2 * y := by
  have hs := Real.sin_pos_of_mem_Ioo hθ
  have hba : b - a ≠ 0 := (sub_pos.2 hab).ne'
  have e : (2 * arc a b θ - a - b) / (b - a) = Real.cos θ := by unfold arc; field_simp; ring
  rw [e, ← Real.sin_sq, Real.sqrt_sq hs.le, mul_neg, abs_neg, abs_of_pos (by have := sub_pos.2 hab; positivity), smul_eq_mul]
  field_simp

theorem arc_inj {a b : ℝ} (hab : a < b) : InjOn (arc a b) (Icc 0 Real.pi) := fun x hx y hy h => by
  refine Real.injOn_cos hx hy ?_
  have := sub_pos.2 hab
  unfold arc at h
  exact mul_left_cancel₀ (by positivity) (add_right_cancel h)

theorem arc_integral {a b u v : ℝ} (hab : a < b) (hu : 0 ≤ u) (huv : u ≤ v) (hv : v ≤ Real.pi) (F : ℝ → ℝ) :
    ∫ t in arc a b v..arc a b u, F t * (1 / Real.sqrt (1 - ((2 * t - a - b) / (b - a)) ^ 2)) = (b - a) / 2 * ∫ θ in u..v, F (arc a b θ) := by
  have hmem : ∀ θ ∈ Ioo u v, θ ∈ Ioo 0 Real.pi := fun θ h => ⟨hu.trans_lt h.1, h.2.trans_le hv⟩
  have hle : arc a b v ≤ arc a b u := by
    have := Real.cos_le_cos_of_nonneg_of_le_pi hu hv huv
    unfold arc; nlinarith
  rw [intervalIntegral.integral_of_le hle, integral_Ioc_eq_integral_Ioo, ← arc_image hab hu huv hv,
    integral_image_eq_integral_abs_deriv_smul measurableSet_Ioo (fun θ _ => arc_deriv a b _ θ) ((arc_inj hab).mono fun θ h => Ioo_subset_Icc_self (hmem θ h)),
    setIntegral_congr_fun measurableSet_Ioo (fun θ hθ => arc_weight hab (hmem θ hθ) (F (arc a b θ))), MeasureTheory.integral_const_mul, intervalIntegral.integral_of_le huv, integral_Ioc_eq_integral_Ioo]

theorem arc_integrable {a b u v : ℝ} (hab : a < b) (hu : 0 ≤ u) (huv : u ≤ v) (hv : v ≤ Real.pi) {F : ℝ → ℝ}
    (h : IntervalIntegrable (fun t => F t * (1 / Real.sqrt (1 - ((2 * t - a - b) / (b - a)) ^ 2))) volume (arc a b v) (arc a b u)) :
    IntervalIntegrable (fun θ => F (arc a b θ)) volume u v := by
  have hmem : ∀ θ ∈ Ioo u v, θ ∈ Ioo 0 Real.pi := fun θ h => ⟨hu.trans_lt h.1, h.2.trans_le hv⟩
  have hle : arc a b v ≤ arc a b u := by
    have := Real.cos_le_cos_of_nonneg_of_le_pi hu hv huv
    unfold arc; nlinarith
  rw [intervalIntegrable_iff_integrableOn_Ioo_of_le hle, ← arc_image hab hu huv hv,
    integrableOn_image_iff_integrableOn_abs_deriv_smul measurableSet_Ioo (fun θ _ => arc_deriv a b _ θ) ((arc_inj hab).mono fun θ h => Ioo_subset_Icc_self (hmem θ h)),
    integrableOn_congr_fun (fun θ hθ => arc_weight hab (hmem θ hθ) (F (arc a b θ))) measurableSet_Ioo] at h
  rw [intervalIntegrable_iff_integrableOn_Ioo_of_le huv]
  have h2 := h.const_mul ((b - a) / 2)⁻¹
  have hne : (b - a) / 2 ≠ 0 := by have := sub_pos.2 hab; positivity
  simp only [inv_mul_cancel_left₀ hne] at h2
  exact h2

/-- the Gauss-Chebyshev rule of the first kind is the midpoint rule in the angle -/
theorem value_cheb1_midSum {n : ℕ} (hn : 0 < n) {r : Rule ℝ} (hr : r.nodeWeightPairs = pairs1 n) (a b : ℝ) (f : ℝ → ℝ) :
    (AnyRule.chebyshevFirst r).value a b f = (b - a) / 2 * midSum n 0 Real.pi fun θ => f (arc a b θ) := by
  rw [value_gauss (ps := pairs1 n) (by rw [← hr]; rfl), quad_pairs1, midSum, Finset.mul_sum (Finset.range n) _ ((Real.pi - 0) / n)]
  congr 1
  refine Finset.sum_congr rfl fun i _ => ?_
  rw [arc, sub_zero, show Real.pi * (2 * (i : ℝ) + 1) / (2 * n) = 0 + ((i : ℝ) + 1 / 2) * (Real.pi / n) by field_simp; ring]

/-- C91 for the Gauss-Chebyshev rule of the first kind -/
theorem C91_chebyshev (mode : Overflow) {n : ℕ} (hn : 0 < n) (hlt : n + 1 < 2 ^ 64) {f : ℝ → ℝ} {a b : ℝ} (hab : a < b)
    (hi : IntervalIntegrable (fun t => f t * (1 / Real.sqrt (1 - ((2 * t - a - b) / (b - a)) ^ 2))) volume a b) :
    ∃ r : Rule ℝ, GaussChebyshevFirstKind.new mode n = some r ∧
    ((MonotoneOn f (Ioc a b) ∨ AntitoneOn f (Ioc a b)) →
      |(AnyRule.chebyshevFirst r).value a b f - ∫ t in a..b, f t * (1 / Real.sqrt (1 - ((2 * t - a - b) / (b - a)) ^ 2))| ≤
        ∫ t in a..((a + b) / 2 - (b - a) / 2 * Real.cos (Real.pi / (2 * n))), |f t - f b| * (1 / Real.sqrt (1 - ((2 * t - a - b) / (b - a)) ^ 2))) ∧
    ((MonotoneOn f (Ico a b) ∨ AntitoneOn f (Ico a b)) →
      |(AnyRule.chebyshevFirst r).value a b f - ∫ t in a..b, f t * (1 / Real.sqrt (1 - ((2 * t - a - b) / (b - a)) ^ 2))| ≤
        ∫ t in ((a + b) / 2 + (b - a) / 2 * Real.cos (Real.pi / (2 * n)))..b, |f t - f a| * (1 / Real.sqrt (1 - ((2 * t - a - b) / (b - a)) ^ 2))) := by
  refine ⟨_, cheb1_new_eq hlt, ?_⟩
  have hpi := Real.pi_pos
  have hd : (1 : ℝ) ≤ n := by exact_mod_cast hn
  have hba := sub_pos.2 hab
  have e0 : arc a b 0 = b := by simp [arc]; ring
  have e1 : arc a b Real.pi = a := by simp [arc]; ring
  have hφ : Real.pi / n / 2 = Real.pi / (2 * n) := by rw [div_div, mul_comm]
  have hφ0 : 0 ≤ Real.pi / (2 * n) := by positivity
  have hφ1 : Real.pi / (2 * n) ≤ Real.pi := div_le_self hpi.le (by linarith)
  have e2 : arc a b (Real.pi - Real.pi / (2 * n)) = (a + b) / 2 - (b - a) / 2 * Real.cos (Real.pi / (2 * n)) := by rw [arc, Real.cos_pi_sub]; ring
  have e3 : arc a b (Real.pi / (2 * n)) = (a + b) / 2 + (b - a) / 2 * Real.cos (Real.pi / (2 * n)) := by rw [arc]; ring
  have hI : ∫ t in a..b, f t * (1 / Real.sqrt (1 - ((2 * t - a - b) / (b - a)) ^ 2)) = (b - a) / 2 * ∫ θ in (0 : ℝ)..Real.pi, f (arc a b θ) := by
    have := arc_integral hab le_rfl hpi.le le_rfl f
    rwa [e0, e1] at this
  have hG : IntervalIntegrable (fun θ => f (arc a b θ)) volume 0 Real.pi := arc_integrable hab le_rfl hpi.le le_rfl (by rw [e0, e1]; exact hi)
  have harc : ∀ x y, 0 ≤ x → x ≤ y → y ≤ Real.pi → arc a b y ≤ arc a b x := fun x y h0 h1 h2 => by
    have := Real.cos_le_cos_of_nonneg_of_le_pi h0 h2 h1
    unfold arc; nlinarith
  have harc' : ∀ x y, 0 ≤ x → x < y → y ≤ Real.pi → arc a b y < arc a b x := fun x y h0 h1 h2 => by
    have := Real.cos_lt_cos_of_nonneg_of_le_pi h0 h2 h1
    unfold arc; nlinarith
  rw [value_cheb1_midSum hn rfl, hI, ← mul_sub, abs_mul, abs_of_pos (by positivity : 0 < (b - a) / 2)]
  constructor
  · intro hf
    have hm : ∀ x ∈ Ico 0 Real.pi, arc a b x ∈ Ioc a b := fun x hx => ⟨by have := harc' x Real.pi hx.1 hx.2 le_rfl; rwa [e1] at this, by have := harc 0 x le_rfl hx.1 hx.2.le; rwa [e0] at this⟩
    have h := midSum_upper hn hpi (f := fun θ => f (arc a b θ)) (hf.symm.imp (fun h x hx y hy hxy => h (hm y hy) (hm x hx) (harc x y hx.1 hxy hy.2.le))
      (fun h x hx y hy hxy => h (hm y hy) (hm x hx) (harc x y hx.1 hxy hy.2.le))) hG
    rw [sub_zero, hφ, e0] at h
    have := arc_integral hab (by linarith : 0 ≤ Real.pi - Real.pi / (2 * n)) (by linarith : Real.pi - Real.pi / (2 * n) ≤ Real.pi) le_rfl (fun t => |f t - f b|)
    rw [e1, e2] at this
    rw [this]
    gcongr
  · intro hf
    have hm : ∀ x ∈ Ioc 0 Real.pi, arc a b x ∈ Ico a b := fun x hx => ⟨by have := harc x Real.pi hx.1.le hx.2 le_rfl; rwa [e1] at this, by have := harc' 0 x le_rfl hx.1 hx.2; rwa [e0] at this⟩
    have h := midSum_lower hn hpi (f := fun θ => f (arc a b θ)) (hf.symm.imp (fun h x hx y hy hxy => h (hm y hy) (hm x hx) (harc x y hx.1.le hxy hy.2))
      (fun h x hx y hy hxy => h (hm y hy) (hm x hx) (harc x y hx.1.le hxy hy.2))) hG
    rw [sub_zero, hφ, e1, zero_add] at h
    have := arc_integral hab le_rfl hφ0 hφ1 (fun t => |f t - f a|)
    rw [e0, e3] at this
    rw [this]
    gcongr

/-- C91, the other composite rules: in binary64 the trapezoid and Simpson rules call the integrand at both ends, so a value there that is not finite makes the result not finite, sequentially and in parallel -/
theorem C91_closed_rules [Libm] (r : NodeRule) {R : AnyRule F64} (hR : R = .trapezoid r ∨ R = .simpson r) (a b : F64) (f : F64 → F64)
    (hf : (f a).isFinite = false ∨ (f b).isFinite = false) :
    (R.value a b f).isFinite = false ∧ ∀ s s' : Schedule, (R.parIntegrate s s' a b f).isFinite = false := by
  have hm : a ∈ points a b R ∧ b ∈ points a b R := by rcases hR with rfl | rfl <;> simp [points]
  obtain ⟨x, hx, hfx⟩ : ∃ x ∈ points a b R, (f x).isFinite = false := hf.elim (fun h => ⟨a, hm.1, h⟩) (fun h => ⟨b, hm.2, h⟩)
  refine ⟨?_, fun s s' => ?_⟩
  · rw [C15_value]
    exact nonfinite_sticky.combine R (by simp) (.inl ⟨_, List.mem_map_of_mem hx, hfx⟩)
  · exact nonfinite_sticky.par R s s' (.inl ⟨x, hx, hfx⟩)

/-- `1/√x` on `[0, 1]`: the midpoint rule with `n` panels is within `√(2/n)` of the integral, 2 -/
example (r : NodeRule) : |(AnyRule.midpoint r).value (0 : ℝ) 1 (fun x : ℝ => x ^ (-(1 / 2) : ℝ)) - 2| ≤ 2 * (1 / (2 * (r.degree : ℝ))) ^ (1 / 2 : ℝ) := by
  have h := C91_midpoint_power r (f := fun x => x ^ (-(1 / 2) : ℝ)) (a := 0) (b := 1) (C := 1) (s := 1 / 2) one_pos (intervalIntegral.intervalIntegrable_rpow' (by norm_num)) (by norm_num)
    (.inr fun x hx y _ hxy => Real.rpow_le_rpow_of_nonpos hx.1 hxy (by norm_num))
    (fun x hx => by
      have h1 : (1 : ℝ) ≤ x ^ (-(1 / 2) : ℝ) := Real.one_le_rpow_of_pos_of_le_one_of_nonpos hx.1 hx.2 (by norm_num)
      rw [Real.one_rpow, abs_of_nonneg (by linarith), sub_zero]; linarith)
  rw [integral_rpow (Or.inl (by norm_num))] at h
  norm_num at h ⊢
  exact h

/-- `(1 + t)^(-1/4)`, unbounded at -1, with the first-kind weight -/
example : ∃ r : Rule ℝ, GaussChebyshevFirstKind.new .checked 5 = some r ∧
    |(AnyRule.chebyshevFirst r).value (-1) 1 (fun t => (1 + t) ^ (-(1 / 4) : ℝ)) - ∫ t in (-1 : ℝ)..1, (1 + t) ^ (-(1 / 4) : ℝ) * (1 / Real.sqrt (1 - ((2 * t - -1 - 1) / (1 - -1)) ^ 2))| ≤
      ∫ t in (-1 : ℝ)..((-1 + 1) / 2 - (1 - -1) / 2 * Real.cos (Real.pi / (2 * (5 : ℕ)))), |(1 + t) ^ (-(1 / 4) : ℝ) - (1 + 1) ^ (-(1 / 4) : ℝ)| * (1 / Real.sqrt (1 - ((2 * t - -1 - 1) / (1 - -1)) ^ 2)) := by
  obtain ⟨r, h1, h2, -⟩ := C91_chebyshev .checked (n := 5) (by norm_num) (by norm_num) (f := fun t => (1 + t) ^ (-(1 / 4) : ℝ)) (a := -1) (b := 1) (by norm_num) (by
    have := intervalIntegrable_jacW (α := -1 / 2) (β := -3 / 4) (by norm_num) (by norm_num)
    rw [intervalIntegrable_iff_integrableOn_Ioo_of_le (by norm_num)] at this ⊢
    refine this.congr_fun (fun t ht => ?_) measurableSet_Ioo
    have p1 : 0 < 1 - t := by linarith [ht.2]
    have p2 : 0 < 1 + t := by linarith [ht.1]
    simp only [jacW]
    rw [show (2 * t - -1 - 1) / (1 - -1) = t by ring, show 1 - t ^ 2 = (1 - t) * (1 + t) by ring, Real.sqrt_mul p1.le, Real.sqrt_eq_rpow, Real.sqrt_eq_rpow, one_div ((1 - t) ^ _ * _), mul_inv,
      ← Real.rpow_neg p1.le, ← Real.rpow_neg p2.le, mul_left_comm, ← Real.rpow_add p2]
    norm_num)
  exact ⟨r, h1, h2 (.inr fun x hx y hy hxy => Real.rpow_le_rpow_of_nonpos (by linarith [hx.1]) (by linarith) (by norm_num))⟩

/-- an integrand that is infinite at the lower end -/
example [Libm] (r : NodeRule) (b : F64) : ((AnyRule.simpson r).value (F64.zero false) b (fun x => if x = F64.zero false then F64.inf false else F64.zero false)).isFinite = false :=
  (C91_closed_rules r (.inr rfl) _ b _ (.inl (by rw [if_pos rfl]; exact inf_nonfinite _))).1

/-- the logarithm on [0, 1], which is not bounded -/
example (r : NodeRule) : |(AnyRule.midpoint r).value (0 : ℝ) 1 Real.log - ∫ x in (0 : ℝ)..1, Real.log x| ≤ ∫ x in (0 : ℝ)..(0 + (1 - 0) / r.degree / 2), |Real.log x - Real.log 1| :=
  (C91_midpoint r one_pos intervalIntegral.intervalIntegrable_log').1 (.inl fun _ hx _ _ hxy => Real.log_le_log hx.1 hxy)

end GaussQuad.Props
