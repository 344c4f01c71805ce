import Verif.Proofs.GaussTheory
import Verif.Proofs.RealRule
import Mathlib.Analysis.SpecialFunctions.Trigonometric.Chebyshev.ChebyshevGauss
import Mathlib.Algebra.Polynomial.Sequence
import Mathlib.Topology.Algebra.Polynomial

/-! Exactness of both Chebyshev rules, and transport of exactness to other intervals. -/

namespace GaussQuad
open Polynomial Spec MeasureTheory FloatOps

/-! ### transport to `[a, b]` -/

/-- the polynomial `p((b-a)/2 · x + (a+b)/2)` -/
noncomputable def affinePoly (a b : ℝ) (p : ℝ[X]) : ℝ[X] := p.comp (C ((b - a) / 2) * X + C ((a + b) / 2))

theorem affinePoly_eval (a b : ℝ) (p : ℝ[X]) (x : ℝ) :
    (affinePoly a b p).eval x = p.eval ((b - a) / 2 * x + (a + b) / 2) := by simp [affinePoly]

theorem affinePoly_natDegree (a b : ℝ) (p : ℝ[X]) : (affinePoly a b p).natDegree ≤ p.natDegree := by
  unfold affinePoly
  refine natDegree_comp_le.trans ?_
  have : (C ((b - a) / 2) * X + C ((a + b) / 2) : ℝ[X]).natDegree ≤ 1 := natDegree_linear_le
  calc _ ≤ p.natDegree * 1 := Nat.mul_le_mul_left _ this
    _ = _ := mul_one _

theorem setIntegral_Ioo_eq_interval {a b : ℝ} (hab : a ≤ b) (f : ℝ → ℝ) :
    ∫ x in Set.Ioo a b, f x = ∫ x in a..b, f x := by
  rw [intervalIntegral.integral_of_le hab, integral_Ioc_eq_integral_Ioo]

/-- exactness on `(-1, 1)` gives exactness on `[a, b]` for the transported weight function -/
theorem exact_interval {L : List (ℝ × ℝ)} {d : ℕ} {w : ℝ → ℝ} {c : ℝ} (hex : ExactUpTo L d (Set.Ioo (-1) 1) w c)
    {a b : ℝ} (hab : a ≠ b) {p : ℝ[X]} (hp : p.natDegree ≤ d) :
    quad (L.map fun q => ((b - a) / 2 * q.1 + (a + b) / 2, (b - a) / 2 * q.2)) (fun x => p.eval x) =
      c * ∫ t in a..b, p.eval t * w ((2 * t - a - b) / (b - a)) := by
  have h1 := hex (affinePoly a b p) ((affinePoly_natDegree a b p).trans hp)
  have h2 : quad (L.map fun q => ((b - a) / 2 * q.1 + (a + b) / 2, (b - a) / 2 * q.2)) (fun x => p.eval x) =
      (b - a) / 2 * quad L (fun x => (affinePoly a b p).eval x) := by
    rw [quad_gauss, quad]
    congr 2
    apply List.map_congr_left
    intro q _
    rw [affinePoly_eval, mul_comm]
  rw [h2, h1, weightIntegral, setIntegral_Ioo_eq_interval (by norm_num)]
  have hne : (b - a) / 2 ≠ 0 := by
    have : b - a ≠ 0 := sub_ne_zero.2 (Ne.symm hab)
    positivity
  have h3 := intervalIntegral.smul_integral_comp_mul_add (a := -1) (b := 1)
    (fun t => p.eval t * w ((2 * t - a - b) / (b - a))) ((b - a) / 2) ((a + b) / 2)
  have e1 : (b - a) / 2 * -1 + (a + b) / 2 = a := by ring
  have e2 : (b - a) / 2 * 1 + (a + b) / 2 = b := by ring
  rw [e1, e2, smul_eq_mul] at h3
  rw [← h3]
  have h4 : ∀ x : ℝ, (2 * ((b - a) / 2 * x + (a + b) / 2) - a - b) / (b - a) = x := by
    intro x
    have : b - a ≠ 0 := sub_ne_zero.2 (Ne.symm hab)
    field_simp; ring
  simp only [h4, affinePoly_eval]
  ring

/-! ### first kind -/

/-- the weight function of the first kind -/
noncomputable def chebW1 (x : ℝ) : ℝ := 1 / Real.sqrt (1 - x ^ 2)

theorem weightIntegral_cheb1 (p : ℝ[X]) :
    weightIntegral (Set.Ioo (-1) 1) chebW1 p = ∫ x, p.eval x ∂Polynomial.Chebyshev.measureT := by
  rw [Polynomial.Chebyshev.integral_measureT, weightIntegral, setIntegral_Ioo_eq_interval (by norm_num)]
  simp only [chebW1, one_div, Real.sqrt_inv]

theorem quad_map_rangeRev (n : ℕ) (g : ℕ → ℝ × ℝ) (f : ℝ → ℝ) :
    quad ((rangeRev (n + 1)).map g) f = ∑ i ∈ Finset.range n, (g (i + 1)).2 * f (g (i + 1)).1 := by
  unfold quad rangeRev
  rw [List.map_reverse, List.map_reverse, List.sum_reverse, List.map_map, Nat.add_sub_cancel,
    List.range'_eq_map_range, List.map_map, sum_map_range]
  apply Finset.sum_congr rfl
  intro i _
  simp only [Function.comp_apply, add_comm 1 i]

theorem cheb1_exact {n : ℕ} (hn : 0 < n) :
    ExactUpTo ((rangeRev (n + 1)).map (GaussChebyshevFirstKind.pair n)) (2 * n - 1) (Set.Ioo (-1) 1) chebW1 1 := by
  intro p hp
  rw [weightIntegral_cheb1, one_mul, Polynomial.Chebyshev.integral_eq_sumZeroes hn.ne'
    (by
      refine lt_of_le_of_lt degree_le_natDegree ?_
      have : p.natDegree < 2 * n := by omega
      exact_mod_cast this)]
  rw [quad_map_rangeRev, Polynomial.Chebyshev.sumZeroes, Finset.mul_sum]
  apply Finset.sum_congr rfl
  intro i _
  simp only [GaussChebyshevFirstKind.pair, real_pi, real_mul, real_sub, real_div, real_ofNat, real_cos, real_lit_two,
    real_lit_one]
  congr 2
  rw [show Real.pi * (2 * ((i + 1 : ℕ) : ℝ) - 1) / (2 * (n : ℝ)) = (2 * (i : ℝ) + 1) / (2 * n) * Real.pi by
    push_cast; ring]

theorem integrableOn_cheb1 (p : ℝ[X]) : IntegrableOn (fun x => p.eval x * chebW1 x) (Set.Ioo (-1) 1) := by
  have h := Polynomial.Chebyshev.intervalIntegrable_sqrt_one_sub_sq_inv.continuousOn_mul
    (g := fun x => p.eval x) p.continuous.continuousOn
  rw [intervalIntegrable_iff, Set.uIoc_of_le (by norm_num)] at h
  refine (h.mono_set Set.Ioo_subset_Ioc_self).congr ?_
  filter_upwards with x
  simp only [chebW1, one_div, Real.sqrt_inv]

theorem one_sub_sq_pos {x : ℝ} (hx : x ∈ Set.Ioo (-1 : ℝ) 1) : 0 < 1 - x ^ 2 := by
  have := hx.1; have := hx.2; nlinarith

theorem posDef_cheb1 : PosDef (Set.Ioo (-1) 1) chebW1 :=
  posDef_of_pos isOpen_Ioo ⟨0, by norm_num⟩ (fun x hx => by
    unfold chebW1; have := Real.sqrt_pos.2 (one_sub_sq_pos hx); positivity) integrableOn_cheb1

/-! ### second kind -/

/-- the weight function of the second kind -/
noncomputable def chebW2 (x : ℝ) : ℝ := Real.sqrt (1 - x ^ 2)

/-- trapezoidal sum of `P(cos θ)` over `[0, π]` with `N` panels -/
noncomputable def lobattoSum (N : ℕ) (P : ℝ[X]) : ℝ :=
  Real.pi / N * ∑ j ∈ Finset.range N,
    (P.eval (Real.cos (j * Real.pi / N)) + P.eval (Real.cos ((j + 1 : ℕ) * Real.pi / N))) / 2

theorem lobattoSum_T (N : ℕ) (hN : N ≠ 0) (k : ℤ) :
    lobattoSum N (Polynomial.Chebyshev.T ℝ k) =
      Real.cos (k * Real.pi / (2 * N)) * Polynomial.Chebyshev.sumZeroes N (Polynomial.Chebyshev.T ℝ k) := by
  unfold lobattoSum Polynomial.Chebyshev.sumZeroes
  rw [← mul_assoc, mul_comm (Real.cos _), mul_assoc]
  congr 1
  rw [Finset.mul_sum]
  apply Finset.sum_congr rfl
  intro j _
  rw [Polynomial.Chebyshev.T_real_cos, Polynomial.Chebyshev.T_real_cos, Polynomial.Chebyshev.T_real_cos, Real.cos_add_cos]
  have hN' : (N : ℝ) ≠ 0 := by exact_mod_cast hN
  have e1 : (k * (j * Real.pi / N) + k * ((j + 1 : ℕ) * Real.pi / N)) / 2 = k * ((2 * j + 1) / (2 * N) * Real.pi) := by
    push_cast; field_simp; ring
  have e2 : (k * (j * Real.pi / N) - k * ((j + 1 : ℕ) * Real.pi / N)) / 2 = -(k * Real.pi / (2 * N)) := by
    push_cast; field_simp; ring
  rw [e1, e2, Real.cos_neg]; ring

theorem integral_eq_lobattoSum {N : ℕ} {P : ℝ[X]} (hN : N ≠ 0) (hP : P.degree < 2 * N) :
    ∫ x, P.eval x ∂Polynomial.Chebyshev.measureT = lobattoSum N P := by
  have hmem : P ∈ degreeLT ℝ (2 * N) := by rwa [mem_degreeLT]
  rw [← Sequence.span_degreeLT (Polynomial.Chebyshev.chebyshevTsequence ℝ) (by simp),
    show Set.Iio (2 * N) = Finset.range (2 * N) by simp,
    Submodule.mem_span_image_finset_iff_exists_fun'] at hmem
  obtain ⟨c, rfl⟩ := hmem
  simp_rw [eval_finsetSum, eval_smul]
  have hsum : lobattoSum N (∑ i ∈ Finset.range (2 * N), c i • Polynomial.Chebyshev.chebyshevTsequence ℝ i) =
      ∑ i ∈ Finset.range (2 * N), c i * lobattoSum N (Polynomial.Chebyshev.T ℝ i) := by
    unfold lobattoSum
    simp_rw [eval_finsetSum, eval_smul, ← Finset.sum_add_distrib, Finset.sum_div]
    rw [Finset.sum_comm, Finset.mul_sum]
    apply Finset.sum_congr rfl
    intro i _
    rw [← mul_assoc, mul_comm (c i), mul_assoc]
    congr 1
    rw [Finset.mul_sum]
    apply Finset.sum_congr rfl
    intro j _
    simp only [Polynomial.Chebyshev.chebyshevTsequence, smul_eq_mul]
    show (_ : ℝ) = _
    ring
  rw [MeasureTheory.integral_finsetSum, hsum]
  · apply Finset.sum_congr rfl
    intro i hi
    simp_rw [smul_eq_mul, MeasureTheory.integral_const_mul]
    congr 1
    show ∫ x, (Polynomial.Chebyshev.T ℝ i).eval x ∂Polynomial.Chebyshev.measureT = _
    rw [lobattoSum_T N hN]
    by_cases h0 : i = 0
    · rw [h0, Nat.cast_zero, Polynomial.Chebyshev.integral_eval_T_real_measureT_zero,
        Polynomial.Chebyshev.sumZeroes_T_zero hN]
      simp
    · have : ¬ (2 * N : ℤ) ∣ i := by
        refine (Int.not_dvd_iff_lt_mul_succ _ (by omega)).mpr ⟨0, ⟨by omega, ?_⟩⟩
        rw_mod_cast [zero_add, mul_one]
        exact Finset.mem_range.mp hi
      rw [Polynomial.Chebyshev.integral_eval_T_real_measureT_of_ne_zero (by exact_mod_cast h0),
        Polynomial.Chebyshev.sumZeroes_T_of_not_dvd this, mul_zero]
  · simp_rw [← eval_smul]
    exact fun i hi => Polynomial.Chebyshev.integrable_measureT (by fun_prop)

theorem weightIntegral_cheb2 (p : ℝ[X]) :
    weightIntegral (Set.Ioo (-1) 1) chebW2 p = ∫ x, (p * (1 - X ^ 2)).eval x ∂Polynomial.Chebyshev.measureT := by
  rw [← weightIntegral_cheb1]
  unfold weightIntegral
  apply setIntegral_congr_fun measurableSet_Ioo
  intro x hx
  have h := one_sub_sq_pos hx
  have h2 := Real.sqrt_pos.2 h
  have h3 := Real.mul_self_sqrt h.le
  simp only [chebW1, chebW2, eval_mul, eval_sub, eval_one, eval_pow, eval_X]
  rw [mul_assoc, mul_one_div]
  congr 1
  rw [eq_div_iff h2.ne']; exact h3

theorem cheb2_exact {n : ℕ} (hn : 0 < n) :
    ExactUpTo ((rangeRev (n + 1)).map (GaussChebyshevSecondKind.pair n)) (2 * n - 1) (Set.Ioo (-1) 1) chebW2 1 := by
  intro p hp
  rw [weightIntegral_cheb2, one_mul, integral_eq_lobattoSum (N := n + 1) (by omega)
    (by
      refine lt_of_le_of_lt degree_le_natDegree ?_
      have h1 : (p * (1 - X ^ 2)).natDegree ≤ p.natDegree + 2 := by
        refine natDegree_mul_le.trans ?_
        have : (1 - X ^ 2 : ℝ[X]).natDegree ≤ 2 := by
          refine (natDegree_sub_le _ _).trans ?_
          simp
        omega
      have : (p * (1 - X ^ 2)).natDegree < 2 * (n + 1) := by omega
      exact_mod_cast this)]
  rw [quad_map_rangeRev, lobattoSum]
  set N : ℝ := ((n + 1 : ℕ) : ℝ) with hNdef
  have hN : N ≠ 0 := by rw [hNdef]; positivity
  simp_rw [add_div]
  rw [Finset.sum_add_distrib, Finset.sum_range_succ', Finset.sum_range_succ]
  have z1 : (p * (1 - X ^ 2)).eval (Real.cos (((0 : ℕ) : ℝ) * Real.pi / N)) = 0 := by simp
  have z2 : (p * (1 - X ^ 2)).eval (Real.cos (((n + 1 : ℕ) : ℝ) * Real.pi / N)) = 0 := by
    rw [mul_div_right_comm, ← hNdef, div_self hN]; simp
  rw [z1, z2, zero_div, add_zero, ← Finset.sum_add_distrib, Finset.mul_sum]
  apply Finset.sum_congr rfl
  intro i _
  simp only [GaussChebyshevSecondKind.pair, real_pi, real_mul, real_add, real_div, real_ofNat, real_cos, real_sin,
    real_lit_one]
  have e : Real.pi * ((i + 1 : ℕ) : ℝ) * (1 / ((n : ℝ) + 1)) = ((i + 1 : ℕ) : ℝ) * Real.pi / N := by
    rw [hNdef]; push_cast; field_simp
  rw [e, eval_mul, eval_sub, eval_one, eval_pow, eval_X, ← Real.sin_sq]
  rw [hNdef]; push_cast; field_simp; ring

theorem integrableOn_cheb2 (p : ℝ[X]) : IntegrableOn (fun x => p.eval x * chebW2 x) (Set.Ioo (-1) 1) := by
  have : Continuous fun x => p.eval x * chebW2 x := by unfold chebW2; fun_prop
  exact (this.integrableOn_Icc).mono_set Set.Ioo_subset_Icc_self

theorem posDef_cheb2 : PosDef (Set.Ioo (-1) 1) chebW2 :=
  posDef_of_pos isOpen_Ioo ⟨0, by norm_num⟩ (fun x hx => Real.sqrt_pos.2 (one_sub_sq_pos hx)) integrableOn_cheb2

end GaussQuad
