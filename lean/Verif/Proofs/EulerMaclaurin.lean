import Verif.Proofs.NewtonCotesError
import Mathlib.NumberTheory.ZetaValues
import Mathlib.MeasureTheory.Integral.IntervalIntegral.IntegrationByParts

/-!
The Euler-Maclaurin formula for one panel and for the composite trapezoid sum, with the remainder of the classical size.
-/

namespace GaussQuad.EulerMaclaurin
open MeasureTheory intervalIntegral Set

/-- the Bernoulli polynomial of order `k`, divided by `k!` and moved to the panel [c, c + h] -/
noncomputable def β (c h : ℝ) (k : ℕ) (x : ℝ) : ℝ := h ^ k / k.factorial * bernoulliFun k ((x - c) / h)

variable {c h : ℝ}

theorem β_continuous (k : ℕ) : Continuous (β c h k) := by
  unfold β
  exact continuous_const.mul ((continuous_bernoulliFun k).comp (by fun_prop))

theorem β_deriv (hh : h ≠ 0) (k : ℕ) (x : ℝ) : HasDerivAt (β c h (k + 1)) (β c h k x) x := by
  have h1 : HasDerivAt (fun x : ℝ => (x - c) / h) (1 / h) x := ((hasDerivAt_id x).sub_const c).div_const h
  have h2 := ((hasDerivAt_bernoulliFun (k + 1) ((x - c) / h)).comp x h1).const_mul (h ^ (k + 1) / (k + 1).factorial)
  refine h2.congr_deriv ?_
  unfold β
  rw [Nat.add_sub_cancel, Nat.factorial_succ]
  have : (k.factorial : ℝ) ≠ 0 := by exact_mod_cast k.factorial_ne_zero
  push_cast
  field_simp
  ring

theorem β_left (k : ℕ) : β c h k c = h ^ k / k.factorial * bernoulli k := by
  unfold β
  rw [sub_self, zero_div, bernoulliFun_eval_zero]

theorem β_right (hh : h ≠ 0) {k : ℕ} (hk : k ≠ 1) : β c h k (c + h) = β c h k c := by
  unfold β
  rw [add_sub_cancel_left, div_self hh, bernoulliFun_endpoints_eq_of_ne_one hk, sub_self, zero_div]

theorem β_odd {m : ℕ} (hm : 0 < m) : β c h (2 * m + 1) c = 0 := by
  rw [β_left, bernoulli_eq_zero_of_odd ⟨m, rfl⟩ (by omega)]; simp

theorem integral_β (hh : h ≠ 0) {k : ℕ} (hk : k ≠ 0) : (∫ x in c..(c + h), β c h k x) = 0 := by
  rw [integral_eq_sub_of_hasDerivAt (fun x _ => β_deriv hh k x) ((β_continuous k).intervalIntegrable _ _), β_right hh (by omega), sub_self]

/-- the even Bernoulli polynomials take their extreme value at the ends -/
theorem bernoulli_extreme {m : ℕ} (hm : m ≠ 0) {x : ℝ} (hx : x ∈ Icc (0 : ℝ) 1) : 0 ≤ (-1 : ℝ) ^ (m + 1) * (bernoulliFun (2 * m) 0 - bernoulliFun (2 * m) x) := by
  have h1 := hasSum_one_div_nat_pow_mul_cos hm hx
  have h0 := hasSum_one_div_nat_pow_mul_cos hm (x := 0) (by simp)
  have h2 := hasSum_le (fun n => ?_) h1 h0
  · have e : ∀ y, (Polynomial.map (algebraMap ℚ ℝ) (Polynomial.bernoulli (2 * m))).eval y = bernoulliFun (2 * m) y := fun y => rfl
    simp only [e] at h2
    have hp : (0 : ℝ) < (2 * Real.pi) ^ (2 * m) / 2 / (2 * m).factorial := by
      have := Real.pi_pos
      have : (0 : ℝ) < (2 * m).factorial := by exact_mod_cast Nat.factorial_pos _
      positivity
    have h3 : 0 ≤ (2 * Real.pi) ^ (2 * m) / 2 / (2 * m).factorial * ((-1 : ℝ) ^ (m + 1) * (bernoulliFun (2 * m) 0 - bernoulliFun (2 * m) x)) := by
      have := sub_nonneg.2 h2
      refine this.trans (le_of_eq ?_)
      ring
    exact nonneg_of_mul_nonneg_right h3 hp
  · simp only [mul_zero, Real.cos_zero, mul_one]
    exact mul_le_of_le_one_right (by positivity) (Real.cos_le_one _)

/-- the integral of the absolute value of the kernel -/
theorem integral_kernel (hh : 0 < h) {m : ℕ} (hm : m ≠ 0) :
    (∫ x in c..(c + h), |β c h (2 * m) c - β c h (2 * m) x|) = h * (h ^ (2 * m) / (2 * m).factorial * |(bernoulli (2 * m) : ℝ)|) := by
  have hc := β_continuous (c := c) (h := h) (2 * m)
  have hsign : ∀ x ∈ uIcc c (c + h), |β c h (2 * m) c - β c h (2 * m) x| = (-1) ^ (m + 1) * (β c h (2 * m) c - β c h (2 * m) x) := by
    intro x hx
    rw [uIcc_of_le (by linarith)] at hx
    have hx' : (x - c) / h ∈ Icc (0 : ℝ) 1 := ⟨div_nonneg (by linarith [hx.1]) hh.le, (div_le_one hh).2 (by linarith [hx.2])⟩
    have h1 := bernoulli_extreme hm hx'
    have h2 : 0 ≤ (-1) ^ (m + 1) * (β c h (2 * m) c - β c h (2 * m) x) := by
      unfold β
      rw [sub_self, zero_div]
      have : 0 ≤ h ^ (2 * m) / ((2 * m).factorial : ℝ) := by positivity
      calc (0 : ℝ) ≤ h ^ (2 * m) / ((2 * m).factorial : ℝ) * ((-1 : ℝ) ^ (m + 1) * (bernoulliFun (2 * m) 0 - bernoulliFun (2 * m) ((x - c) / h))) := mul_nonneg this h1
        _ = _ := by ring
    rw [← abs_of_nonneg h2, abs_mul, abs_pow, abs_neg, abs_one, one_pow, one_mul]
  rw [integral_congr hsign, intervalIntegral.integral_const_mul, intervalIntegral.integral_sub (by simp) (hc.intervalIntegrable _ _), integral_β hh.ne' (by omega), sub_zero, intervalIntegral.integral_const, add_sub_cancel_left,
    smul_eq_mul]
  have h2 : 0 ≤ (-1) ^ (m + 1) * (h * β c h (2 * m) c) := by
    have h3 : (∫ x in c..(c + h), |β c h (2 * m) c - β c h (2 * m) x|) = (-1) ^ (m + 1) * (h * β c h (2 * m) c) := by
      rw [integral_congr hsign, intervalIntegral.integral_const_mul, intervalIntegral.integral_sub (by simp) (hc.intervalIntegrable _ _), integral_β hh.ne' (by omega), sub_zero, intervalIntegral.integral_const, add_sub_cancel_left,
        smul_eq_mul]
    rw [← h3]
    exact integral_nonneg (by linarith) fun _ _ => abs_nonneg _
  rw [← abs_of_nonneg h2, abs_mul, abs_pow, abs_neg, abs_one, one_pow, one_mul, abs_mul, abs_of_pos hh, β_left, abs_mul,
    abs_of_nonneg (by positivity : 0 ≤ h ^ (2 * m) / ((2 * m).factorial : ℝ))]

/-- integration by parts against the kernel -/
theorem parts (hh : 0 < h) {F F' : ℝ → ℝ} (hF : DerivOn F F' c (c + h)) (hF' : ContinuousOn F' (Icc c (c + h))) (k : ℕ) :
    (∫ x in c..(c + h), β c h k x * F x) = β c h (k + 1) (c + h) * F (c + h) - β c h (k + 1) c * F c - ∫ x in c..(c + h), β c h (k + 1) x * F' x := by
  have hle : c ≤ c + h := by linarith
  have h1 := integral_mul_deriv_eq_deriv_mul_of_hasDerivAt (a := c) (b := c + h) (u := F) (v := β c h (k + 1)) (u' := F') (v' := β c h k)
    (by rw [uIcc_of_le hle]; exact hF.cont) (β_continuous _).continuousOn (by rw [min_eq_left hle, max_eq_right hle]; exact hF.deriv) (fun x _ => β_deriv hh.ne' k x)
    (by apply ContinuousOn.intervalIntegrable; rwa [uIcc_of_le hle]) ((β_continuous k).intervalIntegrable _ _)
  simp only [mul_comm (F _), mul_comm (F' _)] at h1
  exact h1

/-- the Euler-Maclaurin formula on one panel -/
theorem panel (hh : 0 < h) (D : ℕ → ℝ → ℝ) : ∀ m : ℕ, (∀ k < 2 * (m + 1), DerivOn (D k) (D (k + 1)) c (c + h)) → ContinuousOn (D (2 * (m + 1))) (Icc c (c + h)) →
    h * ((D 0 c + D 0 (c + h)) / 2) - (∫ x in c..(c + h), D 0 x) =
      ∑ k ∈ Finset.range m, h ^ (2 * (k + 1)) / (2 * (k + 1)).factorial * bernoulli (2 * (k + 1)) * (D (2 * k + 1) (c + h) - D (2 * k + 1) c) +
        ∫ x in c..(c + h), (β c h (2 * (m + 1)) c - β c h (2 * (m + 1)) x) * D (2 * (m + 1)) x := by
  have hle : c ≤ c + h := by linarith
  have hlast : ∀ m : ℕ, DerivOn (D (2 * m + 1)) (D (2 * (m + 1))) c (c + h) → ContinuousOn (D (2 * (m + 1))) (Icc c (c + h)) →
      (∫ x in c..(c + h), (β c h (2 * (m + 1)) c - β c h (2 * (m + 1)) x) * D (2 * (m + 1)) x) =
        β c h (2 * (m + 1)) c * (D (2 * m + 1) (c + h) - D (2 * m + 1) c) - ∫ x in c..(c + h), β c h (2 * (m + 1)) x * D (2 * (m + 1)) x := by
    intro m h1 h2
    have i2 : IntervalIntegrable (D (2 * (m + 1))) volume c (c + h) := by apply ContinuousOn.intervalIntegrable; rwa [uIcc_of_le hle]
    simp only [sub_mul]
    rw [intervalIntegral.integral_sub (i2.const_mul _) (i2.continuousOn_mul (β_continuous _).continuousOn), intervalIntegral.integral_const_mul,
      integral_eq_sub_of_hasDerivAt_of_le hle h1.cont h1.deriv i2]
  intro m
  induction m with
  | zero =>
    intro hD hc
    have d0 := hD 0 (by norm_num)
    have d1 := hD 1 (by norm_num)
    have p0 := parts hh d0 d1.cont 0
    have p1 := parts hh d1 hc 1
    have e0 : ∀ x, β c h 0 x = 1 := fun x => by simp [β]
    have e1 : β c h 1 (c + h) = h / 2 := by simp [β, hh.ne']; ring
    have e2 : β c h 1 c = -(h / 2) := by simp [β]; ring
    rw [hlast 0 d1 hc]
    simp only [e0, one_mul, zero_add, mul_one, mul_zero] at p0 p1 ⊢
    rw [β_right hh.ne' (by norm_num)] at p1
    rw [p0, e1, e2, p1, Finset.sum_range_zero]
    ring
  | succ m ih =>
    intro hD hc
    have d0 := hD (2 * m + 1) (by omega)
    have d1 := hD (2 * (m + 1)) (by omega)
    have d2 := hD (2 * (m + 1) + 1) (by omega)
    rw [ih (fun k hk => hD k (by omega)) d1.cont, Finset.sum_range_succ, hlast m d0 d1.cont, hlast (m + 1) d2 hc, add_assoc]
    congr 1
    have p1 := parts hh d1 d2.cont (2 * (m + 1))
    have p2 := parts hh d2 hc (2 * (m + 1) + 1)
    rw [β_right hh.ne' (by omega), β_odd (by omega)] at p1
    rw [show 2 * (m + 1) + 1 + 1 = 2 * (m + 1 + 1) by ring, β_right hh.ne' (by omega)] at p2
    rw [p1, p2, β_left (2 * (m + 1))]
    ring

/-- the composite trapezoid sum -/
noncomputable def trap (a b : ℝ) (n : ℕ) (g : ℝ → ℝ) : ℝ :=
  (b - a) / n * ∑ i ∈ Finset.range n, (g (a + i * ((b - a) / n)) + g (a + (i + 1) * ((b - a) / n))) / 2

/-- the correction terms below order `2 (m + 1)`, without the factors that depend on the rule -/
noncomputable def corr (a b : ℝ) (n : ℕ) (D : ℕ → ℝ → ℝ) (m : ℕ) : ℝ :=
  ∑ k ∈ Finset.range m, ((b - a) / n) ^ (2 * (k + 1)) / (2 * (k + 1)).factorial * bernoulli (2 * (k + 1)) * (D (2 * k + 1) b - D (2 * k + 1) a)

/-- the Euler-Maclaurin formula for the composite sum, with the remainder bounded -/
theorem composite {a b K : ℝ} (hab : a < b) {n : ℕ} (hn : 0 < n) (D : ℕ → ℝ → ℝ) (m : ℕ) (hD : ∀ k < 2 * (m + 1), DerivOn (D k) (D (k + 1)) a b)
    (hc : ContinuousOn (D (2 * (m + 1))) (Icc a b)) (hK : ∀ x ∈ Icc a b, |D (2 * (m + 1)) x| ≤ K) :
    |trap a b n (D 0) - (∫ x in a..b, D 0 x) - corr a b n D m| ≤
      ((b - a) / n) ^ (2 * (m + 1)) / (2 * (m + 1)).factorial * |(bernoulli (2 * (m + 1)) : ℝ)| * (b - a) * K := by
  have hn' : (0 : ℝ) < n := by exact_mod_cast hn
  set h := (b - a) / n with hh
  have h0 : 0 < h := div_pos (sub_pos.2 hab) hn'
  have hbn : a + n * h = b := by rw [hh, mul_div_cancel₀ _ hn'.ne']; ring
  have hsub : ∀ i < n, a ≤ a + i * h ∧ a + i * h + h ≤ b := by
    intro i hi
    have hi' : (i : ℝ) + 1 ≤ n := by exact_mod_cast hi
    have : (0 : ℝ) ≤ i := Nat.cast_nonneg i
    constructor <;> nlinarith
  have hint : (∫ x in a..b, D 0 x) = ∑ i ∈ Finset.range n, ∫ x in (a + i * h)..(a + i * h + h), D 0 x := by
    have := sum_integral_adjacent_intervals (f := D 0) (μ := volume) (a := fun i : ℕ => a + i * h) (n := n) fun k hk => by
      apply ContinuousOn.intervalIntegrable
      push_cast
      rw [uIcc_of_le (by nlinarith)]
      refine (hD 0 (by omega)).cont.mono (Icc_subset_Icc (hsub k hk).1 ?_)
      have := (hsub k hk).2; linarith
    push_cast at this
    rw [hbn, zero_mul, add_zero] at this
    rw [← this]
    exact Finset.sum_congr rfl fun i _ => by rw [show a + ((i : ℝ) + 1) * h = a + i * h + h by ring]
  have hcorr : corr a b n D m = ∑ i ∈ Finset.range n, ∑ k ∈ Finset.range m, h ^ (2 * (k + 1)) / (2 * (k + 1)).factorial * bernoulli (2 * (k + 1)) *
      (D (2 * k + 1) (a + i * h + h) - D (2 * k + 1) (a + i * h)) := by
    rw [Finset.sum_comm, corr]
    refine Finset.sum_congr rfl fun k _ => ?_
    rw [← Finset.mul_sum]
    congr 1
    have := Finset.sum_range_sub (fun i : ℕ => D (2 * k + 1) (a + i * h)) n
    push_cast at this
    rw [hbn, zero_mul, add_zero] at this
    rw [← this]
    exact Finset.sum_congr rfl fun i _ => by rw [show a + ((i : ℝ) + 1) * h = a + i * h + h by ring]
  have htrap : trap a b n (D 0) = ∑ i ∈ Finset.range n, h * ((D 0 (a + i * h) + D 0 (a + i * h + h)) / 2) := by
    rw [trap, Finset.mul_sum]
    exact Finset.sum_congr rfl fun i _ => by rw [show a + ((i : ℝ) + 1) * h = a + i * h + h by ring]
  rw [htrap, hint, hcorr, ← Finset.sum_sub_distrib, ← Finset.sum_sub_distrib]
  refine (Finset.abs_sum_le_sum_abs _ _).trans ?_
  have hbound : ∀ i ∈ Finset.range n, |h * ((D 0 (a + i * h) + D 0 (a + i * h + h)) / 2) - (∫ x in (a + i * h)..(a + i * h + h), D 0 x) -
      ∑ k ∈ Finset.range m, h ^ (2 * (k + 1)) / (2 * (k + 1)).factorial * bernoulli (2 * (k + 1)) * (D (2 * k + 1) (a + i * h + h) - D (2 * k + 1) (a + i * h))| ≤
      h * (h ^ (2 * (m + 1)) / (2 * (m + 1)).factorial * |(bernoulli (2 * (m + 1)) : ℝ)|) * K := by
    intro i hi
    obtain ⟨s1, s2⟩ := hsub i (Finset.mem_range.1 hi)
    have hss : Icc (a + i * h) (a + i * h + h) ⊆ Icc a b := Icc_subset_Icc s1 s2
    rw [panel h0 D m (fun k hk => (hD k hk).mono s1 s2) (hc.mono hss), add_sub_cancel_left, ← integral_kernel h0 (by omega) (c := a + i * h), ← intervalIntegral.integral_mul_const]
    have hker : Continuous fun x => |β (a + i * h) h (2 * (m + 1)) (a + i * h) - β (a + i * h) h (2 * (m + 1)) x| * K :=
      ((continuous_const.sub (β_continuous _)).abs).mul continuous_const
    refine (Real.norm_eq_abs _).symm.le.trans (intervalIntegral.norm_integral_le_of_norm_le (by linarith) (ae_of_all _ fun x hx => ?_) (hker.intervalIntegrable _ _))
    rw [Real.norm_eq_abs, abs_mul]
    exact mul_le_mul_of_nonneg_left (hK x (hss ⟨hx.1.le, hx.2⟩)) (abs_nonneg _)
  refine (Finset.sum_le_card_nsmul _ _ _ hbound).trans (le_of_eq ?_)
  rw [Finset.card_range, nsmul_eq_mul, show b - a = n * h by linarith]
  ring

end GaussQuad.EulerMaclaurin
