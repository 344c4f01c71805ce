import Verif.Proofs.ChebyshevClosed

/-!
# Gauss-Chebyshev sums in closed form (C102)

For an integrand with one logarithm or one simple pole the value of the rule, the integral and hence the error are known exactly, for every degree.  The
polynomials `T_n`, `U_n` are those of Mathlib.
-/

namespace GaussQuad.Props
open Spec FloatOps Polynomial Filter

variable {a b : ℝ}

theorem hyp_T (n : ℕ) {s η : ℝ} (hs : s = 1 ∨ s = -1) : (Chebyshev.T ℝ n).eval (s * Real.cosh η) = s ^ n * Real.cosh (n * η) := by
  rcases hs with rfl | rfl
  · rw [one_mul, Chebyshev.T_real_cosh]; simp
  · rw [neg_one_mul, Chebyshev.T_eval_neg, Chebyshev.T_real_cosh]; simp [Int.negOnePow_def]

theorem hyp_U (n : ℕ) {s η : ℝ} (hs : s = 1 ∨ s = -1) (hη : 0 < η) :
    (Chebyshev.U ℝ n).eval (s * Real.cosh η) = s ^ n * (Real.sinh ((n + 1) * η) / Real.sinh η) := by
  have h0 : Real.sinh η ≠ 0 := (Real.sinh_pos_iff.2 hη).ne'
  have h := Chebyshev.U_real_cosh η n
  rw [← eq_div_iff h0] at h
  rcases hs with rfl | rfl
  · rw [one_mul, h]; simp
  · rw [neg_one_mul, Chebyshev.U_eval_neg, h]; simp [Int.negOnePow_def]

/-- the integral of the logarithm against the weight function of the first kind -/
theorem integral_log1 (hab : a < b) {z : ℝ} {u v : ℂ} (huv : u * v = 1) (hz : u + v = 2 * z) :
    ∫ t in a..b, Real.log |t - ((a + b) / 2 + (b - a) / 2 * z)| * (1 / Real.sqrt (1 - ((2 * t - a - b) / (b - a)) ^ 2)) =
      (b - a) / 2 * (Real.pi * (Real.log ((b - a) / 4) + (Real.posLog ‖u‖ + Real.posLog ‖v‖))) := by
  have h := integral_transported hab (fun t => Real.log |t - ((a + b) / 2 + (b - a) / 2 * z)|) (fun x => 1 / Real.sqrt (1 - x ^ 2))
  rw [h, integral_chebW1]
  have e : ∀ θ, Real.log |(b - a) / 2 * Real.cos θ + (a + b) / 2 - ((a + b) / 2 + (b - a) / 2 * z)| = Real.log |(b - a) / 2 * Real.cos θ - (b - a) / 2 * z| := by
    intro θ; congr 2; ring
  simp only [e]
  rw [integral_log_cos huv hz (by linarith), show (b - a) / 2 / 2 = (b - a) / 4 by ring]

theorem value_log1 (hab : a < b) {n : ℕ} (hn : 0 < n) {z : ℝ} (hz : (Chebyshev.T ℝ n).eval z ≠ 0) :
    (AnyRule.chebyshevFirst ⟨pairs1 n⟩).value a b (fun x => Real.log |x - ((a + b) / 2 + (b - a) / 2 * z)|) =
      (b - a) / 2 * (Real.pi * Real.log ((b - a) / 4) + Real.pi / n * Real.log (2 * |(Chebyshev.T ℝ n).eval z|)) := by
  rw [value_gauss_quad rfl]
  have e : ∀ x, Real.log |(b - a) / 2 * x + (a + b) / 2 - ((a + b) / 2 + (b - a) / 2 * z)| = Real.log |(b - a) / 2 * x - (b - a) / 2 * z| := by
    intro x; congr 2; ring
  simp only [e]
  rw [quad_log1 hn hz (by linarith), show (b - a) / 2 / 2 = (b - a) / 4 by ring]

/-- C102: logarithmic singularity inside the interval or at one of its ends, at the point with coordinate `z` in `[-1, 1]`, which must not be a node.  The error
of the first kind is exactly `(b - a)/2 · (π/n) · log(2 |T_n(z)|)`. -/
theorem C102_log (mode : Overflow) {n : ℕ} (hn : 0 < n) (hlt : n + 1 < 2 ^ 64) (hab : a < b) {z : ℝ} (h1 : -1 ≤ z) (h2 : z ≤ 1)
    (hz : (Chebyshev.T ℝ n).eval z ≠ 0) :
    ∃ r : Rule ℝ, GaussChebyshevFirstKind.new mode n = some r ∧
      (AnyRule.chebyshevFirst r).value a b (fun x => Real.log |x - ((a + b) / 2 + (b - a) / 2 * z)|) -
        ∫ t in a..b, Real.log |t - ((a + b) / 2 + (b - a) / 2 * z)| * (1 / Real.sqrt (1 - ((2 * t - a - b) / (b - a)) ^ 2)) =
      (b - a) / 2 * (Real.pi / n * Real.log (2 * |(Chebyshev.T ℝ n).eval z|)) := by
  refine ⟨_, cheb1_new_eq hlt, ?_⟩
  have hφ := Real.cos_arccos h1 h2
  set φ := Real.arccos z
  have hu : ‖Complex.exp (φ * Complex.I)‖ = 1 := Complex.norm_exp_ofReal_mul_I φ
  have hv : ‖Complex.exp (-φ * Complex.I)‖ = 1 := by
    have := Complex.norm_exp_ofReal_mul_I (-φ); push_cast at this; exact this
  have hi := integral_log1 hab (z := z) (u := Complex.exp (φ * Complex.I)) (v := Complex.exp (-φ * Complex.I))
    (by rw [← Complex.exp_add]; simp) (by rw [← Complex.two_cos, ← hφ, Complex.ofReal_cos])
  rw [hu, hv, Real.posLog_eq_zero_iff 1 |>.2 (by simp)] at hi
  rw [hi, value_log1 hab hn hz]
  ring

/-- C102: at an end of the interval the first kind returns the integral of the logarithm plus exactly `(b - a)/2 · π log 2 / n`. -/
theorem C102_log_end (mode : Overflow) {n : ℕ} (hn : 0 < n) (hlt : n + 1 < 2 ^ 64) (hab : a < b) {c : ℝ} (hc : c = a ∨ c = b) :
    ∃ r : Rule ℝ, GaussChebyshevFirstKind.new mode n = some r ∧
      (AnyRule.chebyshevFirst r).value a b (fun x => Real.log |x - c|) =
        (∫ t in a..b, Real.log |t - c| * (1 / Real.sqrt (1 - ((2 * t - a - b) / (b - a)) ^ 2))) + (b - a) / 2 * (Real.pi * Real.log 2 / n) := by
  rcases hc with rfl | rfl
  · have ht : |(Chebyshev.T ℝ n).eval (-1)| = 1 := by rw [Chebyshev.T_eval_neg_one]; simp [Int.negOnePow_def]
    obtain ⟨r, hr, h⟩ := C102_log mode hn hlt hab (z := -1) le_rfl (by norm_num) (by intro h0; rw [h0] at ht; norm_num at ht)
    refine ⟨r, hr, ?_⟩
    rw [show (c + b) / 2 + (b - c) / 2 * -1 = c by ring, ht] at h
    rw [← sub_eq_iff_eq_add', h, mul_one]; ring
  · have ht : |(Chebyshev.T ℝ n).eval 1| = 1 := by rw [Chebyshev.T_eval_one]; simp
    obtain ⟨r, hr, h⟩ := C102_log mode hn hlt hab (z := 1) (by norm_num) le_rfl (by intro h0; rw [h0] at ht; norm_num at ht)
    refine ⟨r, hr, ?_⟩
    rw [show (a + c) / 2 + (c - a) / 2 * 1 = c by ring, ht] at h
    rw [← sub_eq_iff_eq_add', h, mul_one]; ring

/-- C102: a logarithm with its singularity outside the interval, at distance `(b - a)/2 · cosh η` from the centre.  The error is exactly
`(b - a)/2 · (π/n) · log(1 + e^(-2nη))`. -/
theorem C102_log_outside (mode : Overflow) {n : ℕ} (hn : 0 < n) (hlt : n + 1 < 2 ^ 64) (hab : a < b) {s η c : ℝ} (hs : s = 1 ∨ s = -1) (hη : 0 < η)
    (hc : c = (a + b) / 2 + s * ((b - a) / 2 * Real.cosh η)) :
    ∃ r : Rule ℝ, GaussChebyshevFirstKind.new mode n = some r ∧
      (AnyRule.chebyshevFirst r).value a b (fun x => Real.log |x - c|) =
        (∫ t in a..b, Real.log |t - c| * (1 / Real.sqrt (1 - ((2 * t - a - b) / (b - a)) ^ 2))) +
          (b - a) / 2 * (Real.pi / n * Real.log (1 + Real.exp (-(2 * n * η)))) := by
  refine ⟨_, cheb1_new_eq hlt, ?_⟩
  have hss : s * s = 1 := by rcases hs with rfl | rfl <;> norm_num
  have habs : |s| = 1 := by rcases hs with rfl | rfl <;> norm_num
  have hn0 : (n : ℝ) ≠ 0 := by positivity
  have hc' : c = (a + b) / 2 + (b - a) / 2 * (s * Real.cosh η) := by rw [hc]; ring
  have hT := hyp_T n (η := η) hs
  have hch := Real.cosh_pos (n * η)
  have hTa : |(Chebyshev.T ℝ n).eval (s * Real.cosh η)| = Real.cosh (n * η) := by
    rw [hT, abs_mul, abs_pow, habs, one_pow, one_mul, abs_of_pos hch]
  have hi := integral_log1 hab (z := s * Real.cosh η) (u := ((s * Real.exp η : ℝ) : ℂ)) (v := ((s * Real.exp (-η) : ℝ) : ℂ))
    (by
      rw [← Complex.ofReal_mul, show s * Real.exp η * (s * Real.exp (-η)) = s * s * (Real.exp η * Real.exp (-η)) by ring, hss, ← Real.exp_add]; simp)
    (by rw [← Complex.ofReal_add, Real.cosh_eq]; push_cast; ring)
  have hp1 : Real.posLog ‖((s * Real.exp η : ℝ) : ℂ)‖ = η := by
    rw [Complex.norm_real, Real.norm_eq_abs, abs_mul, habs, one_mul, abs_of_pos (Real.exp_pos _), Real.posLog_eq_log, Real.log_exp]
    rw [abs_of_pos (Real.exp_pos _)]
    exact Real.one_le_exp hη.le
  have hp2 : Real.posLog ‖((s * Real.exp (-η) : ℝ) : ℂ)‖ = 0 := by
    rw [Complex.norm_real, Real.norm_eq_abs, abs_mul, habs, one_mul, abs_of_pos (Real.exp_pos _), Real.posLog_eq_zero_iff, abs_of_pos (Real.exp_pos _)]
    exact Real.exp_le_one_iff.2 (by linarith)
  rw [hp1, hp2, add_zero] at hi
  rw [hc', hi, value_log1 hab hn (by intro h0; rw [h0, abs_zero] at hTa; exact hch.ne hTa), hTa]
  have hl : Real.log (2 * Real.cosh (n * η)) = n * η + Real.log (1 + Real.exp (-(2 * n * η))) := by
    have : 2 * Real.cosh (n * η) = Real.exp (n * η) * (1 + Real.exp (-(2 * n * η))) := by
      rw [Real.cosh_eq, mul_add, mul_one, ← Real.exp_add, show (n : ℝ) * η + -(2 * n * η) = -(n * η) by ring]; ring
    rw [this, Real.log_mul (Real.exp_pos _).ne' (by positivity), Real.log_exp]
  rw [hl]
  field_simp
  ring

theorem value_pole1 (hab : a < b) {n : ℕ} (hn : 0 < n) {s η c : ℝ} (hs : s = 1 ∨ s = -1) (hη : 0 < η) (hc : c = (a + b) / 2 + s * ((b - a) / 2 * Real.cosh η)) :
    (AnyRule.chebyshevFirst ⟨pairs1 n⟩).value a b (fun x => 1 / (c - x)) = s * (Real.pi / Real.sinh η) * Real.tanh (n * η) := by
  have hh : (b - a) / 2 ≠ 0 := by linarith
  have hcast : ((n : ℤ) - 1) = ((n - 1 : ℕ) : ℤ) := by omega
  have hch := Real.cosh_pos (n * η)
  have hT := hyp_T n (η := η) hs
  have hs0 : s ≠ 0 := by rcases hs with rfl | rfl <;> norm_num
  have hss : s * s = 1 := by rcases hs with rfl | rfl <;> norm_num
  have hU := hyp_U (n - 1) hs hη
  have hn1 : ((n - 1 : ℕ) : ℝ) + 1 = n := by exact_mod_cast Nat.sub_add_cancel hn
  rw [hn1, ← hcast] at hU
  rw [value_gauss_quad rfl]
  have e : ∀ x, 1 / (c - ((b - a) / 2 * x + (a + b) / 2)) = 2 / (b - a) * (1 / (s * Real.cosh η - x)) := by
    intro x
    rw [hc, show (a + b) / 2 + s * ((b - a) / 2 * Real.cosh η) - ((b - a) / 2 * x + (a + b) / 2) = (b - a) / 2 * (s * Real.cosh η - x) by ring,
      ← one_div_mul_one_div, one_div_div]
  simp only [e]
  have hq : quad (pairs1 n) (fun x => 2 / (b - a) * (1 / (s * Real.cosh η - x))) = 2 / (b - a) * quad (pairs1 n) (fun x => 1 / (s * Real.cosh η - x)) := by
    rw [quad_pairs1, quad_pairs1, ← Finset.mul_sum]; ring
  have hsn : s ^ n = s ^ (n - 1) * s := by rw [← pow_succ, Nat.sub_add_cancel hn]
  have hsp : s ^ (n - 1) ≠ 0 := pow_ne_zero _ hs0
  rw [hq, quad_pole1 hn (by rw [hT]; exact mul_ne_zero (pow_ne_zero _ hs0) hch.ne'), hT, hU, hsn, Real.tanh_eq_sinh_div_cosh]
  have hba : b - a ≠ 0 := by linarith
  have hsh := (Real.sinh_pos_iff.2 hη).ne'
  field_simp
  rw [sq, hss]

theorem value_pole2 (hab : a < b) {n : ℕ} (hn : 0 < n) {s η c : ℝ} (hs : s = 1 ∨ s = -1) (hη : 0 < η) (hc : c = (a + b) / 2 + s * ((b - a) / 2 * Real.cosh η)) :
    (AnyRule.chebyshevSecond ⟨pairs2 n⟩).value a b (fun x => 1 / (c - x)) = s * Real.pi * (Real.sinh (n * η) / Real.sinh ((n + 1) * η)) := by
  have hcast : ((n : ℤ) - 1) = ((n - 1 : ℕ) : ℤ) := by omega
  have hs0 : s ≠ 0 := by rcases hs with rfl | rfl <;> norm_num
  have hss : s * s = 1 := by rcases hs with rfl | rfl <;> norm_num
  have hU := hyp_U (n - 1) hs hη
  have hV := hyp_U n hs hη
  have hn1 : ((n - 1 : ℕ) : ℝ) + 1 = n := by exact_mod_cast Nat.sub_add_cancel hn
  rw [hn1, ← hcast] at hU
  have hsh := (Real.sinh_pos_iff.2 hη).ne'
  have hsh1 : Real.sinh ((n + 1) * η) ≠ 0 := (Real.sinh_pos_iff.2 (by positivity)).ne'
  rw [value_gauss_quad rfl]
  have e : ∀ x, 1 / (c - ((b - a) / 2 * x + (a + b) / 2)) = 2 / (b - a) * (1 / (s * Real.cosh η - x)) := by
    intro x
    rw [hc, show (a + b) / 2 + s * ((b - a) / 2 * Real.cosh η) - ((b - a) / 2 * x + (a + b) / 2) = (b - a) / 2 * (s * Real.cosh η - x) by ring,
      ← one_div_mul_one_div, one_div_div]
  simp only [e]
  have hq : quad (pairs2 n) (fun x => 2 / (b - a) * (1 / (s * Real.cosh η - x))) = 2 / (b - a) * quad (pairs2 n) (fun x => 1 / (s * Real.cosh η - x)) := by
    rw [quad_pairs2, quad_pairs2, Finset.mul_sum]
    exact Finset.sum_congr rfl fun i _ => by ring
  have hsn : s ^ n = s ^ (n - 1) * s := by rw [← pow_succ, Nat.sub_add_cancel hn]
  have hsp : s ^ (n - 1) ≠ 0 := pow_ne_zero _ hs0
  rw [hq, quad_pole2 hn (by rw [hV]; exact mul_ne_zero (pow_ne_zero _ hs0) (div_ne_zero hsh1 hsh)), hV, hU, hsn]
  have hba : b - a ≠ 0 := by linarith
  field_simp
  rw [sq, hss]

theorem pole_outside (hab : a < b) {s η c : ℝ} (hs : s = 1 ∨ s = -1) (hη : 0 < η) (hc : c = (a + b) / 2 + s * ((b - a) / 2 * Real.cosh η)) :
    ContinuousOn (fun x => 1 / (c - x)) (Set.uIcc a b) := by
  rw [Set.uIcc_of_lt hab]
  refine continuousOn_const.div (continuousOn_const.sub continuousOn_id) fun x hx h0 => ?_
  have h1 : 1 < Real.cosh η := Real.one_lt_cosh.2 hη.ne'
  have h2 : (b - a) / 2 * 1 < (b - a) / 2 * Real.cosh η := mul_lt_mul_of_pos_left h1 (by linarith)
  have h3 : c = x := by simpa [sub_eq_zero] using h0
  rcases hs with rfl | rfl <;> linarith [hx.1, hx.2]

/-- C102: a simple pole outside the interval.  The first kind returns the integral times `tanh(nη)`, and the integral is `± π / sinh η`. -/
theorem C102_pole_first (mode : Overflow) {n : ℕ} (hn : 0 < n) (hlt : n + 1 < 2 ^ 64) (hab : a < b) {s η c : ℝ} (hs : s = 1 ∨ s = -1) (hη : 0 < η)
    (hc : c = (a + b) / 2 + s * ((b - a) / 2 * Real.cosh η)) :
    (∃ r : Rule ℝ, GaussChebyshevFirstKind.new mode n = some r ∧
      (AnyRule.chebyshevFirst r).value a b (fun x => 1 / (c - x)) =
        Real.tanh (n * η) * ∫ t in a..b, 1 / (c - t) * (1 / Real.sqrt (1 - ((2 * t - a - b) / (b - a)) ^ 2))) ∧
    ∫ t in a..b, 1 / (c - t) * (1 / Real.sqrt (1 - ((2 * t - a - b) / (b - a)) ^ 2)) = s * (Real.pi / Real.sinh η) := by
  have hint : ∫ t in a..b, 1 / (c - t) * (1 / Real.sqrt (1 - ((2 * t - a - b) / (b - a)) ^ 2)) = s * (Real.pi / Real.sinh η) := by
    have h := (C41_chebyshev hab.ne (pole_outside hab hs hη hc)).1
    refine tendsto_nhds_unique h ?_
    have ht : Tendsto (fun n : ℕ => Real.tanh (n * η)) atTop (nhds 1) := by
      have h1 : Tendsto (fun n : ℕ => Real.exp (-(2 * (n * η)))) atTop (nhds 0) := by
        refine Real.tendsto_exp_neg_atTop_nhds_zero.comp ?_
        exact Tendsto.const_mul_atTop (by norm_num) (tendsto_natCast_atTop_atTop.atTop_mul_const hη)
      have h2 := ((tendsto_const_nhds (x := (1 : ℝ))).sub h1).div ((tendsto_const_nhds (x := (1 : ℝ))).add h1) (by norm_num : (1 : ℝ) + 0 ≠ 0)
      rw [sub_zero, add_zero, div_one] at h2
      refine h2.congr fun n => ?_
      have he : Real.exp (-(2 * (n * η))) = Real.exp (-(n * η)) / Real.exp (n * η) := by rw [← Real.exp_sub]; congr 1; ring
      have hp := Real.exp_pos (n * η)
      have hp' := Real.exp_pos (-(n * η))
      rw [Pi.div_apply, Real.tanh_eq_sinh_div_cosh, Real.sinh_eq, Real.cosh_eq, he]
      field_simp
    have h3 := ht.const_mul (s * (Real.pi / Real.sinh η))
    rw [mul_one] at h3
    refine h3.congr' ?_
    filter_upwards [eventually_gt_atTop 0] with m hm
    rw [value_pole1 hab hm hs hη hc]
  refine ⟨⟨_, cheb1_new_eq hlt, ?_⟩, hint⟩
  rw [hint]
  change (AnyRule.chebyshevFirst ⟨pairs1 n⟩).value a b _ = _
  rw [value_pole1 hab hn hs hη hc, mul_comm]

/-- C102: the second kind returns the integral times `(1 - e^(-2nη)) / (1 - e^(-2(n+1)η))`, and the integral is `± π e^(-η)`. -/
theorem C102_pole_second (mode : Overflow) {n : ℕ} (hn : 0 < n) (hlt : n + 1 < 2 ^ 64) (hab : a < b) {s η c : ℝ} (hs : s = 1 ∨ s = -1) (hη : 0 < η)
    (hc : c = (a + b) / 2 + s * ((b - a) / 2 * Real.cosh η)) :
    (∃ r : Rule ℝ, GaussChebyshevSecondKind.new mode n = some r ∧
      (AnyRule.chebyshevSecond r).value a b (fun x => 1 / (c - x)) =
        (1 - Real.exp (-(2 * n * η))) / (1 - Real.exp (-(2 * (n + 1) * η))) *
          ∫ t in a..b, 1 / (c - t) * Real.sqrt (1 - ((2 * t - a - b) / (b - a)) ^ 2)) ∧
    ∫ t in a..b, 1 / (c - t) * Real.sqrt (1 - ((2 * t - a - b) / (b - a)) ^ 2) = s * (Real.pi * Real.exp (-η)) := by
  have hquot : ∀ n : ℕ, Real.sinh (n * η) / Real.sinh ((n + 1) * η) = Real.exp (-η) * ((1 - Real.exp (-(2 * n * η))) / (1 - Real.exp (-(2 * (n + 1) * η)))) := by
    intro n
    have e1 : Real.sinh (n * η) = Real.exp (n * η) / 2 * (1 - Real.exp (-(2 * n * η))) := by
      rw [Real.sinh_eq, mul_sub, mul_one, div_mul_eq_mul_div, ← Real.exp_add, show (n : ℝ) * η + -(2 * n * η) = -(n * η) by ring]; ring
    have e2 : Real.sinh ((n + 1) * η) = Real.exp ((n + 1) * η) / 2 * (1 - Real.exp (-(2 * (n + 1) * η))) := by
      rw [Real.sinh_eq, mul_sub, mul_one, div_mul_eq_mul_div, ← Real.exp_add, show ((n : ℝ) + 1) * η + -(2 * (n + 1) * η) = -((n + 1) * η) by ring]; ring
    have e3 : Real.exp (n * η) = Real.exp (-η) * Real.exp ((n + 1) * η) := by rw [← Real.exp_add]; congr 1; ring
    have hpos : 0 < 2 * ((n : ℝ) + 1) * η := by positivity
    have hlt : Real.exp (-(2 * ((n : ℝ) + 1) * η)) < 1 := Real.exp_lt_one_iff.2 (by linarith)
    have h0 : 1 - Real.exp (-(2 * ((n : ℝ) + 1) * η)) ≠ 0 := by linarith
    have hp := (Real.exp_pos ((n + 1) * η)).ne'
    rw [e1, e2, e3]
    field_simp
  have hint : ∫ t in a..b, 1 / (c - t) * Real.sqrt (1 - ((2 * t - a - b) / (b - a)) ^ 2) = s * (Real.pi * Real.exp (-η)) := by
    have h := (C41_chebyshev hab.ne (pole_outside hab hs hη hc)).2
    refine tendsto_nhds_unique h ?_
    have h1 : Tendsto (fun n : ℕ => Real.exp (-(2 * n * η))) atTop (nhds 0) := by
      have : Tendsto (fun n : ℕ => 2 * (n : ℝ) * η) atTop atTop := by
        have := Tendsto.const_mul_atTop (by norm_num : (0 : ℝ) < 2) (tendsto_natCast_atTop_atTop (R := ℝ))
        exact this.atTop_mul_const hη
      exact Real.tendsto_exp_neg_atTop_nhds_zero.comp this
    have h2 : Tendsto (fun n : ℕ => Real.exp (-(2 * ((n : ℝ) + 1) * η))) atTop (nhds 0) := by
      have := h1.comp (tendsto_add_atTop_nat 1)
      refine this.congr fun n => ?_
      simp
    have h3 := ((tendsto_const_nhds (x := (1 : ℝ))).sub h1).div ((tendsto_const_nhds (x := (1 : ℝ))).sub h2) (by norm_num : (1 : ℝ) - 0 ≠ 0)
    rw [sub_zero, div_one] at h3
    have h4 := h3.const_mul (s * (Real.pi * Real.exp (-η)))
    rw [mul_one] at h4
    refine h4.congr' ?_
    filter_upwards [eventually_gt_atTop 0] with m hm
    rw [value_pole2 hab hm hs hη hc, hquot, Pi.div_apply]
    ring
  refine ⟨⟨_, cheb2_new_eq hlt, ?_⟩, hint⟩
  rw [hint]
  change (AnyRule.chebyshevSecond ⟨pairs2 n⟩).value a b _ = _
  rw [value_pole2 hab hn hs hη hc, hquot]
  ring

/-- the degree-10 rule for `log x` on `[0, 1]` with the weight of the first kind is too large by `π log 2 / 20` -/
example : ∃ r : Rule ℝ, GaussChebyshevFirstKind.new .checked 10 = some r ∧
    (AnyRule.chebyshevFirst r).value 0 1 (fun x => Real.log |x - 0|) =
      (∫ t in (0 : ℝ)..1, Real.log |t - 0| * (1 / Real.sqrt (1 - ((2 * t - 0 - 1) / (1 - 0)) ^ 2))) + (1 - 0) / 2 * (Real.pi * Real.log 2 / (10 : ℕ)) :=
  C102_log_end .checked (by norm_num) (by norm_num) (by norm_num) (.inl rfl)

/-- the hypotheses of the other theorems can be met: `T_4(0) = 1`, so `log |x|` on `[-1, 1]` with four nodes is too large by `π log 2 / 4` -/
example : ∃ r : Rule ℝ, GaussChebyshevFirstKind.new .checked 4 = some r ∧
    (AnyRule.chebyshevFirst r).value (-1) 1 (fun x => Real.log |x - ((-1 + 1) / 2 + (1 - -1) / 2 * 0)|) -
      (∫ t in (-1 : ℝ)..1, Real.log |t - ((-1 + 1) / 2 + (1 - -1) / 2 * 0)| * (1 / Real.sqrt (1 - ((2 * t - -1 - 1) / (1 - -1)) ^ 2))) =
      (1 - -1) / 2 * (Real.pi / (4 : ℕ) * Real.log (2 * |(Chebyshev.T ℝ (4 : ℕ)).eval 0|)) ∧ |(Chebyshev.T ℝ (4 : ℕ)).eval (0 : ℝ)| = 1 := by
  have h : (Chebyshev.T ℝ (4 : ℕ)).eval (0 : ℝ) = 1 := by
    rw [show ((4 : ℕ) : ℤ) = 2 * 2 by norm_num, Chebyshev.T_eval_two_mul_zero]
    simp [Int.negOnePow_even 2 (by decide)]
  obtain ⟨r, hr, h2⟩ := C102_log .checked (n := 4) (by norm_num) (by norm_num) (a := -1) (b := 1) (by norm_num) (z := 0) (by norm_num) (by norm_num) (by rw [h]; norm_num)
  exact ⟨r, hr, h2, by rw [h]; norm_num⟩

/-- `1/(2 - x)` on `[-1, 1]`: `cosh η = 2` -/
example : ∃ η : ℝ, 0 < η ∧ (2 : ℝ) = (-1 + 1) / 2 + 1 * ((1 - -1) / 2 * Real.cosh η) ∧
    ∃ r : Rule ℝ, GaussChebyshevFirstKind.new .checked 3 = some r ∧
      (AnyRule.chebyshevFirst r).value (-1) 1 (fun x => 1 / (2 - x)) = Real.tanh ((3 : ℕ) * η) * (1 * (Real.pi / Real.sinh η)) := by
  refine ⟨Real.arcosh 2, Real.arcosh_pos (by norm_num), ?_, ?_⟩
  · rw [Real.cosh_arcosh (by norm_num)]; norm_num
  · have hc : (2 : ℝ) = (-1 + 1) / 2 + 1 * ((1 - -1) / 2 * Real.cosh (Real.arcosh 2)) := by rw [Real.cosh_arcosh (by norm_num)]; norm_num
    obtain ⟨⟨r, hr, h⟩, hi⟩ := C102_pole_first .checked (n := 3) (by norm_num) (by norm_num) (a := -1) (b := 1) (by norm_num) (.inl rfl)
      (Real.arcosh_pos (by norm_num)) hc
    exact ⟨r, hr, by rw [h, hi]⟩

/-- the same pole for the second kind, and `log |x + 2|` on `[-1, 1]` -/
example : ∃ η : ℝ, 0 < η ∧ Real.cosh η = 2 ∧
    (∃ r : Rule ℝ, GaussChebyshevSecondKind.new .wrapping 1 = some r ∧
      (AnyRule.chebyshevSecond r).value (-1) 1 (fun x => 1 / (2 - x)) =
        (1 - Real.exp (-(2 * (1 : ℕ) * η))) / (1 - Real.exp (-(2 * ((1 : ℕ) + 1) * η))) * (1 * (Real.pi * Real.exp (-η)))) ∧
    ∃ r : Rule ℝ, GaussChebyshevFirstKind.new .wrapping 1 = some r ∧
      (AnyRule.chebyshevFirst r).value (-1) 1 (fun x => Real.log |x - -2|) =
        (∫ t in (-1 : ℝ)..1, Real.log |t - -2| * (1 / Real.sqrt (1 - ((2 * t - -1 - 1) / (1 - -1)) ^ 2))) +
          (1 - -1) / 2 * (Real.pi / (1 : ℕ) * Real.log (1 + Real.exp (-(2 * (1 : ℕ) * η)))) := by
  have hc : Real.cosh (Real.arcosh 2) = 2 := Real.cosh_arcosh (by norm_num)
  have hp : 0 < Real.arcosh 2 := Real.arcosh_pos (by norm_num)
  refine ⟨Real.arcosh 2, hp, hc, ?_, C102_log_outside .wrapping (by norm_num) (by norm_num) (by norm_num) (.inr rfl) hp (by rw [hc]; norm_num)⟩
  obtain ⟨⟨r, hr, h⟩, hi⟩ := C102_pole_second .wrapping (n := 1) (by norm_num) (by norm_num) (a := -1) (b := 1) (c := 2) (by norm_num) (.inl rfl) hp
    (by rw [hc]; norm_num)
  exact ⟨r, hr, by rw [h, hi]⟩

end GaussQuad.Props
