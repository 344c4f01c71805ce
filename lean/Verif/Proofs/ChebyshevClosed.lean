import Verif.Props.Chebyshev
import Mathlib.Analysis.SpecialFunctions.Trigonometric.Chebyshev.RootsExtrema
import Mathlib.Analysis.SpecialFunctions.Integrals.PosLogEqCircleAverage
import Mathlib.LinearAlgebra.Lagrange

/-! Closed forms of the Gauss-Chebyshev sums for logarithms and simple poles. -/

namespace GaussQuad
open Polynomial Spec MeasureTheory FloatOps Props

/-- the nodes of the first kind -/
noncomputable def node1 (n k : ℕ) : ℝ := Real.cos ((2 * k + 1) * Real.pi / (2 * n))

/-- the nodes of the second kind -/
noncomputable def node2 (n k : ℕ) : ℝ := Real.cos ((k + 1) * Real.pi / (n + 1))

theorem quad_pairs1 (n : ℕ) (f : ℝ → ℝ) : quad (pairs1 n) f = Real.pi / n * ∑ i ∈ Finset.range n, f (node1 n i) := by
  rw [pairs1, quad_map_rangeRev, Finset.mul_sum]
  refine Finset.sum_congr rfl fun i _ => ?_
  simp only [GaussChebyshevFirstKind.pair, real_pi, real_mul, real_sub, real_div, real_ofNat, real_cos, real_lit_two, real_lit_one, node1]
  congr 3
  push_cast; ring

theorem quad_pairs2 (n : ℕ) (f : ℝ → ℝ) : quad (pairs2 n) f =
    ∑ i ∈ Finset.range n, Real.pi / (n + 1) * Real.sin ((i + 1) * Real.pi / (n + 1)) ^ 2 * f (node2 n i) := by
  rw [pairs2, quad_map_rangeRev]
  refine Finset.sum_congr rfl fun i _ => ?_
  have e : Real.pi * ((i + 1 : ℕ) : ℝ) * (1 / ((n : ℝ) + 1)) = (i + 1) * Real.pi / (n + 1) := by push_cast; ring
  simp only [GaussChebyshevSecondKind.pair, real_pi, real_mul, real_add, real_div, real_ofNat, real_cos, real_sin, real_lit_one, node2, e]
  ring

theorem node1_inj (n : ℕ) : Set.InjOn (node1 n) (Finset.range n : Finset ℕ) :=
  (Finset.range n).nodup_map_iff_injOn.mp (Chebyshev.roots_T_real_nodup n)

theorem node2_inj (n : ℕ) : Set.InjOn (node2 n) (Finset.range n : Finset ℕ) :=
  (Finset.range n).nodup_map_iff_injOn.mp (Chebyshev.roots_U_real_nodup n)

theorem T_prod {n : ℕ} : Chebyshev.T ℝ n = C (2 ^ (n - 1)) * ∏ i ∈ Finset.range n, (X - C (node1 n i)) := by
  have hr := Chebyshev.roots_T_real n
  have hc : (Chebyshev.T ℝ n).roots.card = (Chebyshev.T ℝ n).natDegree := by
    rw [hr, Chebyshev.natDegree_T, Int.natAbs_natCast]
    change ((Finset.range n).image (node1 n)).card = n
    rw [Finset.card_image_of_injOn (node1_inj n), Finset.card_range]
  have h := C_leadingCoeff_mul_prod_multiset_X_sub_C hc
  rw [← h, Chebyshev.leadingCoeff_T, hr, Int.natAbs_natCast]
  congr 1
  change (∏ x ∈ (Finset.range n).image (node1 n), (X - C x)) = _
  rw [Finset.prod_image (node1_inj n)]

theorem U_prod {n : ℕ} : Chebyshev.U ℝ n = C (2 ^ n) * ∏ i ∈ Finset.range n, (X - C (node2 n i)) := by
  have hr := Chebyshev.roots_U_real n
  have hc : (Chebyshev.U ℝ n).roots.card = (Chebyshev.U ℝ n).natDegree := by
    rw [hr, Chebyshev.natDegree_U_natCast]
    change ((Finset.range n).image (node2 n)).card = n
    rw [Finset.card_image_of_injOn (node2_inj n), Finset.card_range]
  have h := C_leadingCoeff_mul_prod_multiset_X_sub_C hc
  rw [← h, Chebyshev.leadingCoeff_U_natCast, hr]
  congr 1
  change (∏ x ∈ (Finset.range n).image (node2 n), (X - C x)) = _
  rw [Finset.prod_image (node2_inj n)]

/-- the sum of a logarithm over the nodes of the first kind -/
theorem quad_log1 {n : ℕ} (hn : 0 < n) {z : ℝ} (hz : (Chebyshev.T ℝ n).eval z ≠ 0) {h : ℝ} (hh : 0 < h) :
    quad (pairs1 n) (fun x => Real.log |h * x - h * z|) = Real.pi * Real.log (h / 2) + Real.pi / n * Real.log (2 * |(Chebyshev.T ℝ n).eval z|) := by
  have hn0 : (n : ℝ) ≠ 0 := by positivity
  have e : (Chebyshev.T ℝ n).eval z = 2 ^ (n - 1) * ∏ i ∈ Finset.range n, (z - node1 n i) := by
    conv_lhs => rw [T_prod]
    simp [eval_prod]
  have hne : ∀ i ∈ Finset.range n, z - node1 n i ≠ 0 := by
    intro i hi h0
    apply hz
    rw [e, Finset.prod_eq_zero hi h0, mul_zero]
  have hpne : (∏ i ∈ Finset.range n, (z - node1 n i)) ≠ 0 := Finset.prod_ne_zero_iff.2 hne
  have hlog : Real.log (2 * |(Chebyshev.T ℝ n).eval z|) = n * Real.log 2 + ∑ i ∈ Finset.range n, Real.log |z - node1 n i| := by
    rw [e, abs_mul, abs_of_pos (by positivity : (0 : ℝ) < 2 ^ (n - 1)), ← mul_assoc, ← pow_succ', Nat.sub_add_cancel hn, Finset.abs_prod,
      Real.log_mul (by positivity) (by rw [← Finset.abs_prod]; exact abs_ne_zero.2 hpne), Real.log_pow, Real.log_prod (fun i hi => abs_ne_zero.2 (hne i hi))]
  have hs : ∀ i ∈ Finset.range n, Real.log |h * node1 n i - h * z| = Real.log h + Real.log |z - node1 n i| := by
    intro i hi
    rw [← mul_sub, abs_mul, abs_of_pos hh, abs_sub_comm, Real.log_mul hh.ne' (abs_ne_zero.2 (hne i hi))]
  rw [quad_pairs1, hlog, Finset.sum_congr rfl hs, Finset.sum_add_distrib, Finset.sum_const, Finset.card_range, nsmul_eq_mul,
    Real.log_div hh.ne' two_ne_zero]
  field_simp
  ring

/-- the sum of `1/(z - x)` over the nodes of the first kind -/
theorem quad_pole1 {n : ℕ} (hn : 0 < n) {z : ℝ} (hz : (Chebyshev.T ℝ n).eval z ≠ 0) :
    quad (pairs1 n) (fun x => 1 / (z - x)) = Real.pi * (Chebyshev.U ℝ (n - 1)).eval z / (Chebyshev.T ℝ n).eval z := by
  have hn0 : (n : ℝ) ≠ 0 := by positivity
  have hr := Chebyshev.roots_T_real n
  have hs : (Chebyshev.T ℝ n).Splits := by
    rw [splits_iff_card_roots, hr, Chebyshev.natDegree_T, Int.natAbs_natCast]
    change ((Finset.range n).image (node1 n)).card = n
    rw [Finset.card_image_of_injOn (node1_inj n), Finset.card_range]
  have h := hs.eval_derivative_eq_eval_mul_sum hz
  rw [hr, Chebyshev.T_derivative_eq_U] at h
  have e : (((Finset.range n).image (fun (k : ℕ) => Real.cos ((2 * k + 1) * Real.pi / (2 * n)))).val.map fun x => 1 / (z - x)).sum =
      ∑ i ∈ Finset.range n, 1 / (z - node1 n i) := by
    change ∑ x ∈ (Finset.range n).image (node1 n), 1 / (z - x) = _
    rw [Finset.sum_image (node1_inj n)]
  rw [e] at h
  rw [quad_pairs1, eq_div_iff hz]
  simp only [eval_mul, Int.cast_natCast, eval_natCast] at h
  have h2 : (∑ i ∈ Finset.range n, 1 / (z - node1 n i)) * (Chebyshev.T ℝ n).eval z = n * (Chebyshev.U ℝ (n - 1)).eval z := by
    rw [mul_comm, ← h]
  rw [mul_assoc, h2]
  field_simp

theorem U_prev_node {n i : ℕ} (hi : i < n) : (Chebyshev.U ℝ (n - 1)).eval (node2 n i) = (-1) ^ i := by
  have hn1 : (0 : ℝ) < n + 1 := by positivity
  set θ := ((i : ℝ) + 1) * Real.pi / (n + 1) with hθ
  have hi' : (i : ℝ) + 1 < n + 1 := by have : (i : ℝ) < n := by exact_mod_cast hi
                                       linarith
  have hs : 0 < Real.sin θ := Real.sin_pos_of_pos_of_lt_pi (by positivity) (by
    rw [hθ, div_lt_iff₀ hn1, mul_comm Real.pi]
    exact mul_lt_mul_of_pos_right hi' Real.pi_pos)
  have h := Chebyshev.U_real_cos θ (n - 1)
  have e : ((((n : ℤ) - 1 : ℤ) : ℝ) + 1) * θ = ((i + 1 : ℕ) : ℝ) * Real.pi - θ := by
    push_cast; rw [hθ]; field_simp; ring
  rw [e, Real.sin_sub, Real.sin_nat_mul_pi, Real.cos_nat_mul_pi, pow_succ] at h
  have h2 : (Chebyshev.U ℝ (n - 1)).eval (Real.cos θ) * Real.sin θ = (-1) ^ i * Real.sin θ := by rw [h]; ring
  exact mul_right_cancel₀ hs.ne' h2

theorem U_deriv_node {n i : ℕ} (hi : i < n) :
    (derivative (Chebyshev.U ℝ n)).eval (node2 n i) * Real.sin (((i : ℝ) + 1) * Real.pi / (n + 1)) ^ 2 = (n + 1) * (-1) ^ i := by
  have hn1 : (0 : ℝ) < n + 1 := by positivity
  set θ := ((i : ℝ) + 1) * Real.pi / (n + 1) with hθ
  have h := congrArg (eval (Real.cos θ)) (Chebyshev.add_one_mul_T_eq_poly_in_U (R := ℝ) (n : ℤ))
  have h0 : (Chebyshev.U ℝ n).eval (Real.cos θ) = 0 := by
    change (Chebyshev.U ℝ n).eval (node2 n i) = 0
    rw [U_prod, eval_mul, eval_prod, Finset.prod_eq_zero (Finset.mem_range.2 hi) (by simp), mul_zero]
  have hT : (Chebyshev.T ℝ ((n : ℤ) + 1)).eval (Real.cos θ) = -(-1) ^ i := by
    rw [Chebyshev.T_real_cos]
    have e : (((n : ℤ) + 1 : ℤ) : ℝ) * θ = ((i + 1 : ℕ) : ℝ) * Real.pi := by push_cast; rw [hθ]; field_simp
    rw [e, Real.cos_nat_mul_pi, pow_succ]; ring
  simp only [eval_mul, eval_add, eval_sub, eval_one, eval_pow, eval_X, Int.cast_natCast, eval_natCast, h0, hT, mul_zero, zero_sub] at h
  have hc : 1 - Real.cos θ ^ 2 = Real.sin θ ^ 2 := by rw [Real.sin_sq]
  rw [hc] at h
  change (derivative (Chebyshev.U ℝ n)).eval (Real.cos θ) * _ = _
  linarith

/-- the sum of `1/(z - x)` over the nodes of the second kind -/
theorem quad_pole2 {n : ℕ} (hn : 0 < n) {z : ℝ} (hz : (Chebyshev.U ℝ n).eval z ≠ 0) :
    quad (pairs2 n) (fun x => 1 / (z - x)) = Real.pi * (Chebyshev.U ℝ (n - 1)).eval z / (Chebyshev.U ℝ n).eval z := by
  have hn1 : (n : ℝ) + 1 ≠ 0 := by positivity
  have hne : ∀ i ∈ Finset.range n, z ≠ node2 n i := by
    intro i hi h0
    apply hz
    rw [U_prod, eval_mul, eval_prod, Finset.prod_eq_zero hi (by simp [h0]), mul_zero]
  have hnod : C (2 ^ n) * Lagrange.nodal (Finset.range n) (node2 n) = Chebyshev.U ℝ n := by rw [U_prod]; rfl
  have hcast : ((n : ℤ) - 1) = ((n - 1 : ℕ) : ℤ) := by omega
  have hdeg : (Chebyshev.U ℝ (n - 1)).degree < (Finset.range n).card := by
    rw [hcast, Chebyshev.degree_U_natCast, Finset.card_range]
    exact_mod_cast (by omega : n - 1 < n)
  have hI := Lagrange.eq_interpolate_of_eval_eq (r := fun i => (Chebyshev.U ℝ (n - 1)).eval (node2 n i)) (node2_inj n) hdeg (fun i _ => rfl)
  have he := congrArg (eval z) hI
  rw [Lagrange.eval_interpolate_not_at_node _ hne] at he
  have hU : (Chebyshev.U ℝ n).eval z = 2 ^ n * (Lagrange.nodal (Finset.range n) (node2 n)).eval z := by rw [← hnod]; simp
  have hterm : ∀ i ∈ Finset.range n, Lagrange.nodalWeight (Finset.range n) (node2 n) i * (z - node2 n i)⁻¹ * (Chebyshev.U ℝ (n - 1)).eval (node2 n i) =
      2 ^ n / (n + 1) * (Real.sin (((i : ℝ) + 1) * Real.pi / (n + 1)) ^ 2 * (1 / (z - node2 n i))) := by
    intro i hi
    rw [Lagrange.nodalWeight_eq_eval_derivative_nodal hi]
    have hd := U_deriv_node (Finset.mem_range.1 hi)
    have h1 := U_prev_node (Finset.mem_range.1 hi)
    rw [← hnod, derivative_mul, derivative_C, zero_mul, zero_add, eval_mul, eval_C] at hd
    rw [h1]
    set D := (derivative (Lagrange.nodal (Finset.range n) (node2 n))).eval (node2 n i)
    have hp : ((-1 : ℝ) ^ i) * (-1) ^ i = 1 := by rw [← mul_pow]; norm_num
    have hD : D ≠ 0 := by
      rintro h0
      rw [h0, mul_zero, zero_mul] at hd
      have : ((-1 : ℝ) ^ i) ≠ 0 := pow_ne_zero _ (by norm_num)
      exact (mul_ne_zero hn1 this) hd.symm
    have hzi : z - node2 n i ≠ 0 := sub_ne_zero.2 (hne i hi)
    field_simp
    have h3 : (2 : ℝ) ^ n * D * Real.sin (((i : ℝ) + 1) * Real.pi / (n + 1)) ^ 2 * (-1) ^ i = (n + 1) * ((-1) ^ i * (-1) ^ i) := by rw [hd]; ring
    linarith
  rw [Finset.sum_congr rfl hterm, ← Finset.mul_sum] at he
  rw [quad_pairs2, eq_div_iff hz, he, hU]
  rw [Finset.mul_sum, Finset.mul_sum, Finset.sum_mul, Finset.mul_sum]
  refine Finset.sum_congr rfl fun i _ => ?_
  field_simp

/-! ## integrals -/

theorem countable_cos_eq (z : ℝ) : {θ : ℝ | Real.cos θ = z}.Countable := by
  rcases Set.eq_empty_or_nonempty {θ : ℝ | Real.cos θ = z} with h | ⟨φ, hφ⟩
  · rw [h]; exact Set.countable_empty
  · refine ((Set.countable_range fun k : ℤ => 2 * k * Real.pi + φ).union (Set.countable_range fun k : ℤ => 2 * k * Real.pi - φ)).mono ?_
    intro θ hθ
    have : Real.cos φ = Real.cos θ := by rw [Set.mem_ofPred_eq] at hφ hθ; rw [hφ, hθ]
    obtain ⟨k, hk | hk⟩ := Real.cos_eq_cos_iff.1 this
    · exact Or.inl ⟨k, hk.symm⟩
    · exact Or.inr ⟨k, hk.symm⟩

theorem ae_cos_ne (z : ℝ) : ∀ᵐ θ : ℝ, Real.cos θ ≠ z := by
  have := (countable_cos_eq z).measure_zero volume
  rw [ae_iff]
  simpa using this

/-- the integral of `log |h cos θ - h z|` -/
theorem integral_log_cos {z : ℝ} {u v : ℂ} (huv : u * v = 1) (hz : u + v = 2 * z) {h : ℝ} (hh : 0 < h) :
    ∫ θ in 0..Real.pi, Real.log |h * Real.cos θ - h * z| = Real.pi * (Real.log (h / 2) + (Real.posLog ‖u‖ + Real.posLog ‖v‖)) := by
  have hpi := Real.pi_pos
  have iu : IntervalIntegrable (fun θ => Real.log ‖circleMap 0 1 θ - u‖) volume 0 (2 * Real.pi) := circleIntegrable_log_norm_sub_const (a := u) (c := 0) 1
  have iv : IntervalIntegrable (fun θ => Real.log ‖circleMap 0 1 θ - v‖) volume 0 (2 * Real.pi) := circleIntegrable_log_norm_sub_const (a := v) (c := 0) 1
  have au : ∫ θ in 0..2 * Real.pi, Real.log ‖circleMap 0 1 θ - u‖ = 2 * Real.pi * Real.posLog ‖u‖ := by
    have := circleAverage_log_norm_sub_const_eq_posLog (a := u)
    rw [Real.circleAverage_def, smul_eq_mul] at this
    rw [← this]; field_simp
  have av : ∫ θ in 0..2 * Real.pi, Real.log ‖circleMap 0 1 θ - v‖ = 2 * Real.pi * Real.posLog ‖v‖ := by
    have := circleAverage_log_norm_sub_const_eq_posLog (a := v)
    rw [Real.circleAverage_def, smul_eq_mul] at this
    rw [← this]; field_simp
  have hprod : ∀ θ, ‖circleMap 0 1 θ - u‖ * ‖circleMap 0 1 θ - v‖ = 2 * |Real.cos θ - z| := by
    intro θ
    rw [← norm_mul]
    have hw : circleMap 0 1 θ = Complex.exp (θ * Complex.I) := by simp [circleMap]
    have hn : ‖Complex.exp (θ * Complex.I)‖ = 1 := Complex.norm_exp_ofReal_mul_I θ
    have hinv : Complex.exp (θ * Complex.I) * Complex.exp (-θ * Complex.I) = 1 := by rw [← Complex.exp_add]; simp
    have hc : 2 * Complex.cos θ = Complex.exp (θ * Complex.I) + Complex.exp (-θ * Complex.I) := Complex.two_cos _
    have e : (circleMap 0 1 θ - u) * (circleMap 0 1 θ - v) = Complex.exp (θ * Complex.I) * ((2 * (Real.cos θ - z) : ℝ) : ℂ) := by
      rw [hw]
      push_cast
      rw [mul_sub 2, hc]
      linear_combination (-Complex.exp (θ * Complex.I)) * hz + huv - hinv
    rw [e, norm_mul, hn, one_mul, Complex.norm_real, Real.norm_eq_abs, abs_mul, abs_of_pos two_pos]
  have hF : (fun θ => Real.log ‖circleMap 0 1 θ - u‖ + Real.log ‖circleMap 0 1 θ - v‖ + Real.log (h / 2)) =ᵐ[volume] fun θ => Real.log |h * Real.cos θ - h * z| := by
    filter_upwards [ae_cos_ne z] with θ hθ
    have h0 : 0 < |Real.cos θ - z| := abs_pos.2 (sub_ne_zero.2 hθ)
    have h1 := hprod θ
    have hp : ‖circleMap 0 1 θ - u‖ * ‖circleMap 0 1 θ - v‖ ≠ 0 := by rw [h1]; positivity
    rw [← Real.log_mul (left_ne_zero_of_mul hp) (right_ne_zero_of_mul hp), ← Real.log_mul hp (by positivity), h1, ← mul_sub, abs_mul, abs_of_pos hh]
    congr 1; ring
  have hint : IntervalIntegrable (fun θ => Real.log |h * Real.cos θ - h * z|) volume 0 (2 * Real.pi) :=
    ((iu.add iv).add intervalIntegrable_const).congr_ae (ae_restrict_of_ae hF)
  have htot : ∫ θ in 0..2 * Real.pi, Real.log |h * Real.cos θ - h * z| = 2 * Real.pi * (Real.log (h / 2) + (Real.posLog ‖u‖ + Real.posLog ‖v‖)) := by
    rw [← intervalIntegral.integral_congr_ae (hF.mono fun θ hθ _ => hθ), intervalIntegral.integral_add (iu.add iv) intervalIntegrable_const,
      intervalIntegral.integral_add iu iv, au, av, intervalIntegral.integral_const, smul_eq_mul]
    ring
  have i1 : IntervalIntegrable (fun θ => Real.log |h * Real.cos θ - h * z|) volume 0 Real.pi :=
    hint.mono_set (by rw [Set.uIcc_of_le hpi.le, Set.uIcc_of_le (by linarith)]; exact Set.Icc_subset_Icc le_rfl (by linarith))
  have i2 : IntervalIntegrable (fun θ => Real.log |h * Real.cos θ - h * z|) volume Real.pi (2 * Real.pi) :=
    hint.mono_set (by rw [Set.uIcc_of_le (by linarith), Set.uIcc_of_le (by linarith)]; exact Set.Icc_subset_Icc hpi.le le_rfl)
  rw [← intervalIntegral.integral_add_adjacent_intervals i1 i2] at htot
  have hsym : ∫ θ in Real.pi..2 * Real.pi, Real.log |h * Real.cos θ - h * z| = ∫ θ in 0..Real.pi, Real.log |h * Real.cos θ - h * z| := by
    have := intervalIntegral.integral_comp_sub_left (a := 0) (b := Real.pi) (fun θ => Real.log |h * Real.cos θ - h * z|) (2 * Real.pi)
    rw [show 2 * Real.pi - Real.pi = Real.pi by ring, sub_zero] at this
    rw [← this]
    simp only [Real.cos_two_pi_sub]
  rw [hsym] at htot
  linarith

theorem integral_chebW1 (f : ℝ → ℝ) : ∫ x in (-1 : ℝ)..1, f x * (1 / Real.sqrt (1 - x ^ 2)) = ∫ θ in 0..Real.pi, f (Real.cos θ) := by
  rw [← Chebyshev.integral_measureT_eq_integral_cos, Chebyshev.integral_measureT]
  simp only [one_div, Real.sqrt_inv]

theorem integral_transported {a b : ℝ} (hab : a < b) (g W : ℝ → ℝ) :
    ∫ t in a..b, g t * W ((2 * t - a - b) / (b - a)) = (b - a) / 2 * ∫ x in (-1 : ℝ)..1, g ((b - a) / 2 * x + (a + b) / 2) * W x := by
  have h3 := intervalIntegral.smul_integral_comp_mul_add (a := -1) (b := 1) (fun t => g t * W ((2 * t - a - b) / (b - a))) ((b - a) / 2) ((a + b) / 2)
  rw [show (b - a) / 2 * -1 + (a + b) / 2 = a by ring, show (b - a) / 2 * 1 + (a + b) / 2 = b by ring, smul_eq_mul] at h3
  rw [← h3]
  have h4 : ∀ x : ℝ, (2 * ((b - a) / 2 * x + (a + b) / 2) - a - b) / (b - a) = x := by
    intro x
    have : b - a ≠ 0 := by linarith
    field_simp; ring
  simp only [h4]

end GaussQuad
