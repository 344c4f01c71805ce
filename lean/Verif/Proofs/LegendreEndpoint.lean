import Verif.Proofs.LegendreGauss
import Mathlib.Analysis.SpecialFunctions.Integrals.Basic
import Mathlib.Analysis.SpecialFunctions.ImproperIntegrals

/-!
# The error of the Gauss-Legendre rule for `1/(z - x)`, `z > 1`

It is the function of the second kind divided by the Legendre polynomial, and telescopes over the degree.
-/

namespace GaussQuad
open Polynomial Spec MeasureTheory LegendrePoly Set

/-! ### growth of `P_k` beyond 1 -/

/-- second order Taylor polynomial of `P_k` at 1 as lower bound -/
theorem P_growth {t : ℝ} (ht : 0 ≤ t) (k : ℕ) :
    1 + k * (k + 1) / 2 * t + ((k : ℝ) - 1) * k * (k + 1) * (k + 2) / 16 * t ^ 2 ≤ P k (1 + t) ∧
    t * (k + 1) ^ 2 + t ^ 2 * (k * (k + 1) ^ 2 * (k + 2) / 4) ≤ (k + 1) * (P (k + 1) (1 + t) - P k (1 + t)) := by
  induction k with
  | zero => simp
  | succ k ih =>
    obtain ⟨h1, h2⟩ := ih
    have hk : (0 : ℝ) ≤ k := Nat.cast_nonneg k
    have r := P_rec k (1 + t)
    have h3 : 1 + ((k : ℝ) + 1) * (k + 2) / 2 * t + (k : ℝ) * (k + 1) * (k + 2) * (k + 3) / 16 * t ^ 2 ≤ P (k + 1) (1 + t) := by
      have : t * (k + 1) + t ^ 2 * (k * (k + 1) * (k + 2) / 4) ≤ P (k + 1) (1 + t) - P k (1 + t) := by
        have h0 : (0 : ℝ) < k + 1 := by positivity
        refine le_of_mul_le_mul_left ?_ h0
        refine le_trans (le_of_eq ?_) h2
        ring
      nlinarith
    push_cast
    refine ⟨le_trans (le_of_eq (by ring)) h3, ?_⟩
    have h4 : ((k : ℝ) + 1 + 1) * (P (k + 1 + 1) (1 + t) - P (k + 1) (1 + t)) = (k + 1) * (P (k + 1) (1 + t) - P k (1 + t)) + (2 * k + 3) * t * P (k + 1) (1 + t) := by
      linear_combination r
    rw [h4]
    have h5 := mul_le_mul_of_nonneg_left h3 (show 0 ≤ (2 * (k : ℝ) + 3) * t by positivity)
    refine le_trans ?_ (add_le_add h2 h5)
    have : 0 ≤ (2 * (k : ℝ) + 3) * t * ((k : ℝ) * (k + 1) * (k + 2) * (k + 3) / 16 * t ^ 2) := by positivity
    nlinarith

theorem P_ge_one {t : ℝ} (ht : 0 ≤ t) (k : ℕ) : 1 ≤ P k (1 + t) := by
  refine le_trans ?_ (P_growth ht k).1
  have : 0 ≤ ((k : ℝ) - 1) * k * (k + 1) * (k + 2) / 16 * t ^ 2 := by
    rcases k with _ | k
    · simp
    · push_cast; ring_nf; positivity
  have h2 : 0 ≤ (k : ℝ) * (k + 1) / 2 * t := by positivity
  linarith

theorem P_ge_linear {t : ℝ} (ht : 0 ≤ t) (k : ℕ) : 1 + k * t / 2 ≤ P k (1 + t) := by
  refine le_trans ?_ (P_growth ht k).1
  have : 0 ≤ ((k : ℝ) - 1) * k * (k + 1) * (k + 2) / 16 * t ^ 2 := by
    rcases k with _ | k
    · simp
    · push_cast; ring_nf; positivity
  have h2 : 0 ≤ (k : ℝ) * k * t := by positivity
  nlinarith

theorem P_ge_sq {t : ℝ} (ht : 0 ≤ t) {k : ℕ} (hk : 2 ≤ k) : (1 + k ^ 2 * t / 4) ^ 2 ≤ P k (1 + t) := by
  refine le_trans ?_ (P_growth ht k).1
  have hk' : (2 : ℝ) ≤ k := by exact_mod_cast hk
  have h1 : (k : ℝ) ^ 2 / 2 ≤ k * (k + 1) / 2 := by nlinarith
  have h2 : (k : ℝ) ^ 4 / 16 ≤ ((k : ℝ) - 1) * k * (k + 1) * (k + 2) / 16 := by
    have : 0 ≤ (k : ℝ) * (2 * k ^ 2 - k - 2) := mul_nonneg (by linarith) (by nlinarith)
    nlinarith
  have h3 := mul_le_mul_of_nonneg_right h1 ht
  have h4 := mul_le_mul_of_nonneg_right h2 (sq_nonneg t)
  nlinarith

theorem P_mono {t : ℝ} (ht : 0 ≤ t) (k : ℕ) : P k (1 + t) ≤ P (k + 1) (1 + t) := by
  have h := (P_growth ht k).2
  have h0 : (0 : ℝ) < k + 1 := by positivity
  have h1 : 0 ≤ t * ((k : ℝ) + 1) ^ 2 + t ^ 2 * (k * (k + 1) ^ 2 * (k + 2) / 4) := by positivity
  have := nonneg_of_mul_nonneg_right (h1.trans h) h0
  linarith

/-! ### the functions of the second kind -/

/-- `∫ P_k(x) / (1 + t - x) dx` over `(-1, 1)` -/
noncomputable def legJ (k : ℕ) (t : ℝ) : ℝ := ∫ x in (-1 : ℝ)..1, P k x / (1 + t - x)

theorem kernel_cont {t : ℝ} (ht : 0 < t) {f : ℝ → ℝ} (hf : Continuous f) : IntervalIntegrable (fun x => f x / (1 + t - x)) volume (-1) 1 := by
  refine ContinuousOn.intervalIntegrable ?_
  rw [uIcc_of_le (by norm_num)]
  refine hf.continuousOn.div (by fun_prop) fun x hx => ?_
  have := hx.2
  linarith

theorem integral_P (k : ℕ) : ∫ x in (-1 : ℝ)..1, P (k + 1) x = 0 := by
  have h := legInt_orthogonal (q := 1) (n := k + 1) (by rw [degree_one]; exact_mod_cast Nat.succ_pos k)
  rw [one_mul, legInt_apply, weightIntegral, setIntegral_Ioo_eq_interval (by norm_num)] at h
  simpa [P] using h

theorem legJ_rec {t : ℝ} (ht : 0 < t) (k : ℕ) : (k + 2) * legJ (k + 2) t = (2 * k + 3) * (1 + t) * legJ (k + 1) t - (k + 1) * legJ k t := by
  have h1 := kernel_cont ht (LegendrePoly.continuous (k + 1))
  have h0 := kernel_cont ht (LegendrePoly.continuous k)
  have hP : IntervalIntegrable (P (k + 1)) volume (-1) 1 := (LegendrePoly.continuous (k + 1)).intervalIntegrable _ _
  have e : legJ (k + 2) t * (k + 2) = ∫ x in (-1 : ℝ)..1, ((2 * k + 3) * (1 + t) * (P (k + 1) x / (1 + t - x)) - (k + 1) * (P k x / (1 + t - x)) - (2 * k + 3) * P (k + 1) x) := by
    rw [legJ, ← intervalIntegral.integral_mul_const]
    refine intervalIntegral.integral_congr fun x hx => ?_
    rw [uIcc_of_le (by norm_num)] at hx
    have hne : 1 + t - x ≠ 0 := by have := hx.2; linarith
    have r := P_rec k x
    field_simp
    linear_combination r
  rw [mul_comm, e, intervalIntegral.integral_sub ((h1.const_mul _).sub (h0.const_mul _)) (hP.const_mul _), intervalIntegral.integral_sub (h1.const_mul _) (h0.const_mul _),
    intervalIntegral.integral_const_mul, intervalIntegral.integral_const_mul, intervalIntegral.integral_const_mul, integral_P]
  simp only [legJ]
  ring

theorem legJ_wronskian {t : ℝ} (ht : 0 < t) (k : ℕ) : P (k + 1) (1 + t) * legJ k t - P k (1 + t) * legJ (k + 1) t = 2 / (k + 1) := by
  induction k with
  | zero =>
    have h1 := kernel_cont ht (LegendrePoly.continuous 1)
    have h0 := kernel_cont ht (LegendrePoly.continuous 0)
    simp only [legJ, Nat.cast_zero, zero_add, P_zero, P_one, one_mul, div_one] at *
    rw [← intervalIntegral.integral_const_mul, ← intervalIntegral.integral_sub (h0.const_mul _) h1]
    have : ∫ x in (-1 : ℝ)..1, ((1 + t) * (1 / (1 + t - x)) - x / (1 + t - x)) = ∫ x in (-1 : ℝ)..1, (1 : ℝ) := by
      refine intervalIntegral.integral_congr fun x hx => ?_
      rw [uIcc_of_le (by norm_num)] at hx
      have hne : 1 + t - x ≠ 0 := by have := hx.2; linarith
      field_simp
    rw [this]; simp; norm_num
  | succ k ih =>
    have r1 := P_rec k (1 + t)
    have r2 := legJ_rec ht k
    have hk : (k : ℝ) + 2 ≠ 0 := by positivity
    have hk1 : (k : ℝ) + 1 ≠ 0 := by positivity
    push_cast
    rw [eq_div_iff (by rw [add_assoc]; norm_num; exact hk)]
    rw [eq_div_iff hk1] at ih
    linear_combination legJ (k + 1) t * r1 - P (k + 1) (1 + t) * r2 + ih

/-- the error of the rule with `k` nodes for `1/(1+t-x)` -/
noncomputable def legR (k : ℕ) (t : ℝ) : ℝ := legJ k t / P k (1 + t)

theorem legR_step {t : ℝ} (ht : 0 < t) (k : ℕ) : legR k t - legR (k + 1) t = 2 / ((k + 1) * (P k (1 + t) * P (k + 1) (1 + t))) := by
  have h0 : P k (1 + t) ≠ 0 := by have := P_ge_one ht.le k; linarith
  have h1 : P (k + 1) (1 + t) ≠ 0 := by have := P_ge_one ht.le (k + 1); linarith
  have hk1 : (k : ℝ) + 1 ≠ 0 := by positivity
  have w := legJ_wronskian ht k
  rw [eq_div_iff hk1] at w
  rw [legR, legR]
  field_simp
  linear_combination w

theorem integral_kernel {t : ℝ} (ht : 0 < t) : ∫ x in (-1 : ℝ)..1, 1 / (1 + t - x) = Real.log (2 + t) - Real.log t := by
  have h := intervalIntegral.integral_comp_sub_left (fun x : ℝ => 1 / x) (a := -1) (b := 1) (1 + t)
  rw [h, show 1 + t - 1 = t by ring, show 1 + t - -1 = 2 + t by ring, integral_one_div_of_pos ht (by linarith), Real.log_div (by linarith) ht.ne']

theorem legJ_abs_le {t : ℝ} (ht : 0 < t) (k : ℕ) : |legJ k t| ≤ Real.log (2 + t) - Real.log t := by
  rw [← integral_kernel ht, legJ]
  have h1 := kernel_cont ht (LegendrePoly.continuous k)
  have h0 := kernel_cont ht (continuous_const (y := (1 : ℝ)))
  refine (intervalIntegral.abs_integral_le_integral_abs (by norm_num)).trans ?_
  refine intervalIntegral.integral_mono_on_of_le_Ioo (by norm_num) h1.abs h0 fun x hx => ?_
  have hp : 0 < 1 + t - x := by have := hx.2; linarith
  rw [abs_div, abs_of_pos hp]
  exact div_le_div_of_nonneg_right (abs_P_le k (by nlinarith [hx.1, hx.2])) hp.le

theorem legR_tendsto {t : ℝ} (ht : 0 < t) : Filter.Tendsto (fun k => legR k t) Filter.atTop (nhds 0) := by
  have hb : ∀ k : ℕ, |legR k t| ≤ (Real.log (2 + t) - Real.log t) / (1 + k * t / 2) := fun k => by
    have h1 := P_ge_linear ht.le k
    have h2 : 0 < 1 + (k : ℝ) * t / 2 := by positivity
    rw [legR, abs_div, abs_of_pos (h2.trans_le h1)]
    exact div_le_div₀ ((abs_nonneg _).trans (legJ_abs_le ht 0)) (legJ_abs_le ht k) h2 h1
  refine squeeze_zero_norm hb ?_
  refine Filter.Tendsto.div_atTop tendsto_const_nhds ?_
  refine Filter.tendsto_atTop_add_const_left _ _ ?_
  exact (tendsto_natCast_atTop_atTop.atTop_mul_const ht).atTop_div_const two_pos

theorem legR_anti {t : ℝ} (ht : 0 < t) : Antitone fun k => legR k t := antitone_nat_of_succ_le fun k => by
  have h := legR_step ht k
  have h0 := P_ge_one ht.le k
  have h1 := P_ge_one ht.le (k + 1)
  have : 0 ≤ 2 / (((k : ℝ) + 1) * (P k (1 + t) * P (k + 1) (1 + t))) := by positivity
  linarith

theorem legR_nonneg {t : ℝ} (ht : 0 < t) (k : ℕ) : 0 ≤ legR k t := (legR_anti ht).le_of_tendsto (legR_tendsto ht) k

/-- the error formula -/
theorem gauss_kernel_error {G : List (ℝ × ℝ)} {n : ℕ} (hn : 0 < n) (hlen : G.length = n) (hex : ExactUpTo G (2 * n - 1) (Ioo (-1) 1) (fun _ => 1) 1) {t : ℝ} (ht : 0 < t) :
    (∫ x in (-1 : ℝ)..1, 1 / (1 + t - x)) - quad G (fun x => 1 / (1 + t - x)) = legR n t := by
  have hz := P_ge_one ht.le n
  have hroot := true_root hn hlen hex
  have hlt := gauss_nodes_lt one_pos (by rw [hlen]; exact hex) posDef_one' (b := 1) fun x hx => hx.2.le
  set q := legendreP n /ₘ (X - C (1 + t)) with hq
  have hq1 : ∀ x, P n x = P n (1 + t) + (x - (1 + t)) * q.eval x := fun x => by
    have := congrArg (eval x) (modByMonic_add_div (legendreP n) (X - C (1 + t)))
    rw [modByMonic_X_sub_C_eq_C_eval, eval_add, eval_mul, eval_C, eval_sub, eval_X, eval_C] at this
    exact this.symm
  have hdeg : q.natDegree ≤ 2 * n - 1 := by
    rw [hq, natDegree_divByMonic _ (monic_X_sub_C _), natDegree_X_sub_C, legendre_natDegree]; omega
  have h := hex q hdeg
  have h1 : quad G (fun x => q.eval x) = P n (1 + t) * quad G fun x => 1 / (1 + t - x) := by
    rw [← quad_smul]
    refine quad_congr fun p hp => ?_
    have hne : 1 + t - p.1 ≠ 0 := by have := hlt p hp; linarith
    have := hq1 p.1
    rw [hroot p hp] at this
    field_simp
    linarith
  have h2 : weightIntegral (Ioo (-1) 1) (fun _ => 1) q = P n (1 + t) * (∫ x in (-1 : ℝ)..1, 1 / (1 + t - x)) - legJ n t := by
    rw [weightIntegral, setIntegral_Ioo_eq_interval (by norm_num), legJ, ← intervalIntegral.integral_const_mul,
      ← intervalIntegral.integral_sub ((kernel_cont ht continuous_const).const_mul _) (kernel_cont ht (LegendrePoly.continuous n))]
    refine intervalIntegral.integral_congr fun x hx => ?_
    rw [uIcc_of_le (by norm_num)] at hx
    have hne : 1 + t - x ≠ 0 := by have := hx.2; linarith
    have := hq1 x
    field_simp
    linarith
  rw [h1, one_mul, h2] at h
  rw [legR, eq_div_iff (by linarith)]
  linarith

/-! ### moments of the error -/

theorem pow_bound {s : ℝ} {m : ℕ} (hs : -1 < s) (hm : s + 1 < m) :
    IntegrableOn (fun u : ℝ => u ^ s / (1 + u) ^ m) (Ioi 0) ∧ ∫ u in Ioi (0 : ℝ), u ^ s / (1 + u) ^ m ≤ 1 / (s + 1) + 1 / (m - 1 - s) := by
  have hmeas : AEStronglyMeasurable (fun u : ℝ => u ^ s / (1 + u) ^ m) (volume.restrict (Ioi 0)) := by
    refine Measurable.aestronglyMeasurable ?_
    fun_prop
  have hU : Ioi (0 : ℝ) = Ioc 0 1 ∪ Ioi 1 := (Ioc_union_Ioi_eq_Ioi zero_le_one).symm
  have i1 : IntegrableOn (fun u : ℝ => u ^ s) (Ioc 0 1) := by
    have := intervalIntegral.intervalIntegrable_rpow' (a := 0) (b := 1) hs
    rwa [intervalIntegrable_iff_integrableOn_Ioc_of_le zero_le_one] at this
  have i2 : IntegrableOn (fun u : ℝ => u ^ (s - m)) (Ioi 1) := integrableOn_Ioi_rpow_of_lt (by linarith) one_pos
  have b1 : ∀ u ∈ Ioc (0 : ℝ) 1, u ^ s / (1 + u) ^ m ≤ u ^ s := fun u hu =>
    div_le_self (Real.rpow_nonneg hu.1.le _) (one_le_pow₀ (by linarith [hu.1]))
  have b2 : ∀ u ∈ Ioi (1 : ℝ), u ^ s / (1 + u) ^ m ≤ u ^ (s - m) := fun u hu => by
    have hu0 : 0 < u := one_pos.trans hu
    rw [Real.rpow_sub hu0, Real.rpow_natCast]
    exact div_le_div_of_nonneg_left (Real.rpow_nonneg hu0.le _) (by positivity) (pow_le_pow_left₀ hu0.le (by linarith) m)
  have n1 : ∀ u : ℝ, 0 < u → 0 ≤ u ^ s / (1 + u) ^ m := fun u hu => by positivity
  have j1 : IntegrableOn (fun u : ℝ => u ^ s / (1 + u) ^ m) (Ioc 0 1) := by
    refine Integrable.mono' i1 (hmeas.mono_measure (Measure.restrict_mono Ioc_subset_Ioi_self le_rfl)) ?_
    refine (ae_restrict_iff' measurableSet_Ioc).2 (Filter.Eventually.of_forall fun u hu => ?_)
    rw [Real.norm_of_nonneg (n1 u hu.1)]; exact b1 u hu
  have j2 : IntegrableOn (fun u : ℝ => u ^ s / (1 + u) ^ m) (Ioi 1) := by
    refine Integrable.mono' i2 (hmeas.mono_measure (Measure.restrict_mono (Ioi_subset_Ioi zero_le_one) le_rfl)) ?_
    refine (ae_restrict_iff' measurableSet_Ioi).2 (Filter.Eventually.of_forall fun u hu => ?_)
    rw [Real.norm_of_nonneg (n1 u (one_pos.trans hu))]; exact b2 u hu
  refine ⟨hU ▸ j1.union j2, ?_⟩
  rw [hU, setIntegral_union (Ioc_disjoint_Ioi le_rfl) measurableSet_Ioi j1 j2]
  refine add_le_add ((setIntegral_mono_on j1 i1 measurableSet_Ioc b1).trans (le_of_eq ?_)) ((setIntegral_mono_on j2 i2 measurableSet_Ioi b2).trans (le_of_eq ?_))
  · rw [← intervalIntegral.integral_of_le zero_le_one, integral_rpow (Or.inl hs), Real.one_rpow, Real.zero_rpow (by linarith)]; ring
  · rw [integral_Ioi_rpow_of_lt (by linarith) one_pos, Real.one_rpow, ← neg_div_neg_eq, neg_neg]
    congr 1; ring

theorem log_add_le {y ε : ℝ} (hy : 0 ≤ y) (hε : 0 < ε) (hε1 : ε ≤ 1) : Real.log (1 + y) ≤ y ^ ε / ε := by
  have h1 : (1 + y) ^ ε ≤ 1 + y ^ ε := by
    have := Real.rpow_add_le_add_rpow zero_le_one hy hε.le hε1
    rwa [Real.one_rpow] at this
  have h2 : 0 ≤ y ^ ε := Real.rpow_nonneg hy _
  rw [le_div_iff₀ hε, mul_comm, ← Real.log_rpow (by linarith)]
  refine (Real.log_le_log (by positivity) h1).trans ?_
  have := Real.log_le_sub_one_of_pos (show 0 < 1 + y ^ ε by linarith)
  linarith

theorem legR_measurable {n : ℕ} (hn : 0 < n) : AEStronglyMeasurable (legR n) (volume.restrict (Ioi 0)) := by
  obtain ⟨G, hlen, -, hex⟩ := exists_gauss_legendre hn
  have : AEStronglyMeasurable (fun t => (Real.log (2 + t) - Real.log t) - quad G (fun x => 1 / (1 + t - x))) (volume.restrict (Ioi 0)) := by
    refine Measurable.aestronglyMeasurable ?_
    refine Measurable.sub (by fun_prop) ?_
    simp only [quad_fin]
    fun_prop
  refine this.congr ?_
  refine (ae_restrict_iff' measurableSet_Ioi).2 (Filter.Eventually.of_forall fun t ht => ?_)
  simp only
  rw [← gauss_kernel_error hn hlen hex ht, integral_kernel ht]

theorem legR_le {n : ℕ} (hn : 2 ≤ n) {t ε : ℝ} (ht : 0 < t) (hε : 0 < ε) (hε1 : ε ≤ 1) : legR n t ≤ 2 ^ ε / ε * (t ^ (-ε) / (1 + t) ^ 2) := by
  have h1 := P_ge_sq ht.le hn
  have hn' : (2 : ℝ) ≤ n := by exact_mod_cast hn
  have h2 : (1 + t) ^ 2 ≤ P n (1 + t) := le_trans (pow_le_pow_left₀ (by linarith) (by nlinarith [mul_le_mul_of_nonneg_right (show (4 : ℝ) ≤ n ^ 2 by nlinarith) ht.le]) 2) h1
  have h3 := (le_abs_self _).trans (legJ_abs_le ht n)
  have h4 : Real.log (2 + t) - Real.log t ≤ (2 / t) ^ ε / ε := by
    rw [← Real.log_div (by linarith) ht.ne', show (2 + t) / t = 1 + 2 / t by field_simp; ring]
    exact log_add_le (by positivity) hε hε1
  rw [legR]
  have h5 : 0 ≤ Real.log (2 + t) - Real.log t := (abs_nonneg _).trans (legJ_abs_le ht n)
  refine (div_le_div₀ (by positivity) (h3.trans h4) (by positivity) h2).trans (le_of_eq ?_)
  rw [Real.div_rpow two_pos.le ht.le, Real.rpow_neg ht.le]
  field_simp

theorem moment_integrable {q : ℝ} (h1 : -1 < q) (h2 : q < 2) {n : ℕ} (hn : 2 ≤ n) : IntegrableOn (fun t : ℝ => t ^ q * legR n t) (Ioi 0) := by
  obtain ⟨ε, e0, e1, e2, e3⟩ : ∃ ε : ℝ, 0 < ε ∧ ε ≤ 1 ∧ -1 < q - ε ∧ q - ε < 1 := by
    refine ⟨min 1 ((q + 1) / 2), lt_min one_pos (by linarith), min_le_left _ _, ?_, ?_⟩
    · have := min_le_right 1 ((q + 1) / 2); linarith
    · rcases min_choice 1 ((q + 1) / 2) with h | h <;> rw [h] <;> linarith
  have hb := (pow_bound (s := q - ε) (m := 2) e2 (by norm_num; linarith)).1.const_mul (2 ^ ε / ε)
  refine Integrable.mono' hb ?_ ?_
  · exact (Measurable.aestronglyMeasurable (by fun_prop)).mul (legR_measurable (by omega))
  · refine (ae_restrict_iff' measurableSet_Ioi).2 (Filter.Eventually.of_forall fun t ht => ?_)
    have ht' : 0 < t := ht
    have hq := Real.rpow_nonneg ht'.le q
    rw [Real.norm_of_nonneg (mul_nonneg hq (legR_nonneg ht' n))]
    refine (mul_le_mul_of_nonneg_left (legR_le hn ht' e0 e1) hq).trans (le_of_eq ?_)
    rw [sub_eq_add_neg q ε, Real.rpow_add ht']
    ring

/-- `∫ t^q R_n(t) dt` -/
noncomputable def legM (q : ℝ) (n : ℕ) : ℝ := ∫ t in Ioi (0 : ℝ), t ^ q * legR n t

/-- `∫ u^q / (1+u)^4 du` -/
noncomputable def betaFour (q : ℝ) : ℝ := ∫ u in Ioi (0 : ℝ), u ^ q / (1 + u) ^ 4

theorem betaFour_nonneg (q : ℝ) : 0 ≤ betaFour q := setIntegral_nonneg measurableSet_Ioi fun u hu => by
  have hu' : (0 : ℝ) < u := hu
  positivity

theorem legM_nonneg (q : ℝ) (n : ℕ) : 0 ≤ legM q n := setIntegral_nonneg measurableSet_Ioi fun t ht =>
  mul_nonneg (Real.rpow_nonneg (le_of_lt ht) _) (legR_nonneg ht n)

theorem legM_tendsto {q : ℝ} (h1 : -1 < q) (h2 : q < 2) : Filter.Tendsto (legM q) Filter.atTop (nhds 0) := by
  have h := tendsto_integral_filter_of_dominated_convergence (μ := volume.restrict (Ioi (0 : ℝ))) (l := Filter.atTop) (F := fun (n : ℕ) t => t ^ q * legR n t) (f := fun _ => 0)
    (fun t => t ^ q * legR 2 t) ?_ ?_ (moment_integrable h1 h2 le_rfl) ?_
  · rw [integral_zero] at h; exact h
  · refine Filter.eventually_atTop.2 ⟨1, fun n hn => ?_⟩
    exact (Measurable.aestronglyMeasurable (by fun_prop)).mul (legR_measurable (by omega))
  · refine Filter.eventually_atTop.2 ⟨2, fun n hn => ?_⟩
    refine (ae_restrict_iff' measurableSet_Ioi).2 (Filter.Eventually.of_forall fun t ht => ?_)
    have hq := Real.rpow_nonneg (le_of_lt ht) q
    rw [Real.norm_of_nonneg (mul_nonneg hq (legR_nonneg ht n))]
    exact mul_le_mul_of_nonneg_left (legR_anti ht hn) hq
  · refine (ae_restrict_iff' measurableSet_Ioi).2 (Filter.Eventually.of_forall fun t ht => ?_)
    simpa using (legR_tendsto ht).const_mul (t ^ q)

theorem legM_step {q : ℝ} (h1 : -1 < q) (h2 : q < 2) {n : ℕ} (hn : 2 ≤ n) : legM q n - legM q (n + 1) ≤ 2 / (n + 1) * ((4 / n ^ 2) ^ (q + 1) * betaFour q) := by
  have hn' : (2 : ℝ) ≤ n := by exact_mod_cast hn
  have hc : (0 : ℝ) < n ^ 2 / 4 := by positivity
  have hB := (pow_bound (s := q) (m := 4) h1 (by norm_num; linarith)).1
  have hs := integral_comp_mul_left_Ioi (fun u : ℝ => u ^ q / (1 + u) ^ 4) 0 hc
  rw [mul_zero] at hs
  have hi : IntegrableOn (fun t : ℝ => (n ^ 2 / 4 * t) ^ q / (1 + n ^ 2 / 4 * t) ^ 4) (Ioi 0) := by
    have := (integrableOn_Ioi_comp_mul_left_iff (fun u : ℝ => u ^ q / (1 + u) ^ 4) 0 hc).2 (by rwa [mul_zero])
    exact this
  rw [legM, legM, ← integral_sub (moment_integrable h1 h2 hn) (moment_integrable h1 h2 (by omega))]
  have key : ∫ t in Ioi (0 : ℝ), (t ^ q * legR n t - t ^ q * legR (n + 1) t) ≤
      ∫ t in Ioi (0 : ℝ), 2 / (n + 1) * ((4 / n ^ 2) ^ q * ((n ^ 2 / 4 * t) ^ q / (1 + n ^ 2 / 4 * t) ^ 4)) := by
    refine setIntegral_mono_on ((moment_integrable h1 h2 hn).sub (moment_integrable h1 h2 (by omega))) ((hi.const_mul _).const_mul _) measurableSet_Ioi fun t ht => ?_
    have ht' : 0 < t := ht
    have hq := Real.rpow_nonneg ht'.le q
    rw [← mul_sub, legR_step ht']
    have p1 := P_ge_sq ht'.le hn
    have p2 := p1.trans (P_mono ht'.le n)
    have e : (4 / (n : ℝ) ^ 2) ^ q * (n ^ 2 / 4 * t) ^ q = t ^ q := by
      rw [← Real.mul_rpow (by positivity) (by positivity)]
      congr 1; field_simp
    rw [← mul_div_assoc ((4 / (n : ℝ) ^ 2) ^ q), e]
    have h0 : 0 < 1 + (n : ℝ) ^ 2 / 4 * t := by positivity
    have h3 : (1 + (n : ℝ) ^ 2 / 4 * t) ^ 4 ≤ P n (1 + t) * P (n + 1) (1 + t) := by
      rw [show (1 + (n : ℝ) ^ 2 / 4 * t) ^ 4 = (1 + n ^ 2 * t / 4) ^ 2 * (1 + n ^ 2 * t / 4) ^ 2 by ring]
      exact mul_le_mul p1 p2 (by positivity) ((by positivity : (0:ℝ) ≤ (1 + n ^ 2 * t / 4) ^ 2).trans p1)
    have h4 : 2 / (((n : ℝ) + 1) * (P n (1 + t) * P (n + 1) (1 + t))) ≤ 2 / ((n + 1) * (1 + n ^ 2 / 4 * t) ^ 4) :=
      div_le_div_of_nonneg_left two_pos.le (by positivity) (mul_le_mul_of_nonneg_left h3 (by positivity))
    refine (mul_le_mul_of_nonneg_left h4 hq).trans (le_of_eq ?_)
    field_simp
  refine key.trans (le_of_eq ?_)
  rw [integral_const_mul, integral_const_mul, hs, smul_eq_mul, ← betaFour, Real.rpow_add (by positivity), Real.rpow_one, inv_div]
  ring

theorem inv_pow_step {s : ℝ} (hs : 0 < s) {n : ℝ} (hn : 2 ≤ n) : s * n ^ (-s - 1) ≤ (n - 1) ^ (-s) - n ^ (-s) := by
  have hn0 : 0 < n := by linarith
  have h0 : 0 < 1 - 1 / n := by
    rw [sub_pos, div_lt_one hn0]; linarith
  have h1 : 1 + s / n ≤ (1 - 1 / n) ^ (-s) := by
    rw [Real.rpow_def_of_pos h0]
    have h2 := Real.log_le_sub_one_of_pos h0
    have h3 := Real.add_one_le_exp (Real.log (1 - 1 / n) * -s)
    have h4 := mul_le_mul_of_nonneg_left h2 hs.le
    have : s * (1 - 1 / n - 1) = -(s / n) := by ring
    linarith
  have e : n - 1 = n * (1 - 1 / n) := by field_simp
  rw [e, Real.mul_rpow hn0.le h0.le, Real.rpow_sub hn0, Real.rpow_one]
  have := mul_le_mul_of_nonneg_left h1 (Real.rpow_nonneg hn0.le (-s))
  have e2 : n ^ (-s) * (1 + s / n) = n ^ (-s) + s * (n ^ (-s) / n) := by ring
  linarith

theorem legM_le {q : ℝ} (h1 : -1 < q) (h2 : q < 2) {n : ℕ} (hn : 2 ≤ n) : legM q n ≤ betaFour q * 4 ^ (q + 1) / (q + 1) * (n - 1 : ℝ) ^ (-(2 * q + 2)) := by
  set K := betaFour q * 4 ^ (q + 1) / (q + 1) with hK
  have hK0 : 0 ≤ K := div_nonneg (mul_nonneg (betaFour_nonneg q) (Real.rpow_nonneg (by norm_num) _)) (by linarith)
  have hs : 0 < 2 * q + 2 := by linarith
  have step : ∀ m : ℕ, 2 ≤ m → legM q m - K * (m - 1 : ℝ) ^ (-(2 * q + 2)) ≤ legM q (m + 1) - K * (((m + 1 : ℕ) : ℝ) - 1) ^ (-(2 * q + 2)) := fun m hm => by
    have hm' : (2 : ℝ) ≤ m := by exact_mod_cast hm
    have a1 := legM_step h1 h2 hm
    have a2 := mul_le_mul_of_nonneg_left (inv_pow_step hs hm') hK0
    have hm0 : (0 : ℝ) < m := by linarith
    have a3 : 2 / ((m : ℝ) + 1) * ((4 / m ^ 2) ^ (q + 1) * betaFour q) ≤ K * ((2 * q + 2) * (m : ℝ) ^ (-(2 * q + 2) - 1)) := by
      have e1 : (4 / (m : ℝ) ^ 2) ^ (q + 1) = 4 ^ (q + 1) * (m : ℝ) ^ (-(2 * q + 2)) := by
        rw [Real.div_rpow (by norm_num) (by positivity), ← Real.rpow_natCast, ← Real.rpow_mul hm0.le, div_eq_mul_inv, ← Real.rpow_neg hm0.le]
        congr 2; push_cast; ring
      have e2 : (m : ℝ) ^ (-(2 * q + 2) - 1) = (m : ℝ) ^ (-(2 * q + 2)) / m := by rw [Real.rpow_sub hm0, Real.rpow_one]
      rw [e1, e2, hK]
      have hb := betaFour_nonneg q
      have h4 : (0 : ℝ) ≤ 4 ^ (q + 1) := Real.rpow_nonneg (by norm_num) _
      have hq1 : q + 1 ≠ 0 := by linarith
      have : betaFour q * 4 ^ (q + 1) / (q + 1) * ((2 * q + 2) * ((m : ℝ) ^ (-(2 * q + 2)) / m)) = 2 / m * (4 ^ (q + 1) * (m : ℝ) ^ (-(2 * q + 2)) * betaFour q) := by
        field_simp
      rw [this]
      exact mul_le_mul_of_nonneg_right (div_le_div_of_nonneg_left two_pos.le hm0 (by linarith)) (by positivity)
    have e : ((m + 1 : ℕ) : ℝ) - 1 = m := by push_cast; ring
    rw [e]
    nlinarith
  have hmono : Monotone fun j : ℕ => legM q (n + j) - K * (((n + j : ℕ) : ℝ) - 1) ^ (-(2 * q + 2)) := monotone_nat_of_le_succ fun j => step (n + j) (by omega)
  have hlim : Filter.Tendsto (fun j : ℕ => legM q (n + j) - K * (((n + j : ℕ) : ℝ) - 1) ^ (-(2 * q + 2))) Filter.atTop (nhds (0 - K * 0)) := by
    have ht : Filter.Tendsto (fun j : ℕ => n + j) Filter.atTop Filter.atTop := Filter.tendsto_atTop_mono (fun j => Nat.le_add_left j n) Filter.tendsto_id
    refine ((legM_tendsto h1 h2).comp ht).sub (Filter.Tendsto.const_mul K ?_)
    refine (tendsto_rpow_neg_atTop hs).comp ?_
    exact Filter.tendsto_atTop_add_const_right _ (-1) (tendsto_natCast_atTop_atTop.comp ht)
  have := hmono.ge_of_tendsto hlim 0
  simp only [add_zero] at this
  linarith

end GaussQuad
