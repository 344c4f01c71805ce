import Verif.Proofs.NodeSpacing
import Mathlib.Analysis.SpecialFunctions.Gamma.BohrMollerup
import Mathlib.Analysis.SpecialFunctions.ImproperIntegrals

/-!
# Spacing of the Gauss-Laguerre nodes

With `x = t²`, the function `t^(α + 1/2) exp(-t²/2) p_n(t²)` solves `u'' = -q u` with `q = 4n + 2α + 2 - t² + (1/4 - α²) / t²`.
-/

namespace GaussQuad
open Polynomial Spec MeasureTheory

variable {α : ℝ}

theorem laguerre_structure (hα : -1 < α) (k : ℕ) : X * derivative (monicSeq (lagA α) (lagB α) k) =
    (X - C (α + 1 + k)) * monicSeq (lagA α) (lagB α) k - monicSeq (lagA α) (lagB α) (k + 1) := by
  refine Polynomial.funext fun x => ?_
  have h1 := laguerre_derivative_eval hα x k
  have h2 := (monicSeq_rec_eval (lagA α) (lagB α) k x).1
  simp only [eval_mul, eval_X, eval_sub, eval_C]
  rw [h1, h2, lagA]; ring

/-- Laguerre's differential equation -/
theorem laguerre_ode (hα : -1 < α) (n : ℕ) {x : ℝ} (hx : x ≠ 0) : x * (derivative (derivative (monicSeq (lagA α) (lagB α) n))).eval x +
    (α + 1 - x) * (derivative (monicSeq (lagA α) (lagB α) n)).eval x + n * (monicSeq (lagA α) (lagB α) n).eval x = 0 := by
  have h0 := congrArg (eval x) (laguerre_structure hα n)
  have h1 := congrArg (fun p => eval x (derivative p)) (laguerre_structure hα n)
  have h2 := laguerre_derivative_eval hα x (n + 1)
  simp only [derivative_mul, derivative_sub, derivative_X, derivative_C, eval_add, eval_mul, eval_sub, eval_X, eval_C, eval_one, one_mul, sub_zero] at h0 h1
  rw [prevTerm, eval_mul, eval_C, lagB_sq hα] at h2
  push_cast at h2
  refine (mul_right_inj' hx).1 ?_
  linear_combination x * h1 - h2 - ((n : ℝ) + 1) * h0

/-- the Laguerre function in the variable `t = √x`, and its derivative -/
noncomputable def lagU (α : ℝ) (n : ℕ) (t : ℝ) : ℝ := t ^ (α + 1 / 2) * Real.exp (-t ^ 2 / 2) * (monicSeq (lagA α) (lagB α) n).eval (t ^ 2)
noncomputable def lagU' (α : ℝ) (n : ℕ) (t : ℝ) : ℝ := t ^ (α + 1 / 2) * Real.exp (-t ^ 2 / 2) *
  (((α + 1 / 2) / t - t) * (monicSeq (lagA α) (lagB α) n).eval (t ^ 2) + 2 * t * (derivative (monicSeq (lagA α) (lagB α) n)).eval (t ^ 2))

theorem lag_factor_deriv (α : ℝ) {t : ℝ} (ht : 0 < t) :
    HasDerivAt (fun t : ℝ => t ^ (α + 1 / 2) * Real.exp (-t ^ 2 / 2)) (((α + 1 / 2) / t - t) * (t ^ (α + 1 / 2) * Real.exp (-t ^ 2 / 2))) t := by
  have h := (Real.hasDerivAt_rpow_const (x := t) (p := α + 1 / 2) (Or.inl ht.ne')).mul (exp_half_deriv t)
  refine h.congr_deriv ?_
  rw [Real.rpow_sub_one ht.ne']; ring

theorem poly_sq_deriv (p : ℝ[X]) (t : ℝ) : HasDerivAt (fun t : ℝ => p.eval (t ^ 2)) (2 * t * (derivative p).eval (t ^ 2)) t := by
  have h1 : HasDerivAt (fun t : ℝ => t ^ 2) (2 * t) t := by simpa using hasDerivAt_pow 2 t
  refine ((p.hasDerivAt (t ^ 2)).comp t h1).congr_deriv ?_
  ring

theorem lagU_deriv (α : ℝ) (n : ℕ) {t : ℝ} (ht : 0 < t) : HasDerivAt (lagU α n) (lagU' α n t) t := by
  refine ((lag_factor_deriv α ht).mul (poly_sq_deriv _ t)).congr_deriv ?_
  rw [lagU']; ring

theorem lagU'_deriv (hα : -1 < α) (n : ℕ) {t : ℝ} (ht : 0 < t) : HasDerivAt (lagU' α n) (-((4 * n + 2 * α + 2 - t ^ 2 + (1 / 4 - α ^ 2) / t ^ 2) * lagU α n t)) t := by
  have h1 : HasDerivAt (fun t : ℝ => (α + 1 / 2) / t - t) (-(α + 1 / 2) / t ^ 2 - 1) t := by
    refine (((hasDerivAt_id t).fun_inv ht.ne').const_mul (α + 1 / 2) |>.sub (hasDerivAt_id t)).congr_deriv ?_
    simp only [id]; ring
  have h2 : HasDerivAt (fun t : ℝ => 2 * t) 2 t := by simpa using (hasDerivAt_id t).const_mul 2
  have h := (lag_factor_deriv α ht).mul ((h1.mul (poly_sq_deriv (monicSeq (lagA α) (lagB α) n) t)).add (h2.mul (poly_sq_deriv (derivative (monicSeq (lagA α) (lagB α) n)) t)))
  refine h.congr_deriv ?_
  have ho := laguerre_ode hα n (x := t ^ 2) (by positivity)
  simp only [Pi.add_apply, Pi.mul_apply, lagU]
  generalize (derivative (derivative (monicSeq (lagA α) (lagB α) n))).eval (t ^ 2) = p2 at ho ⊢
  generalize (derivative (monicSeq (lagA α) (lagB α) n)).eval (t ^ 2) = p1 at ho ⊢
  generalize (monicSeq (lagA α) (lagB α) n).eval (t ^ 2) = p0 at ho ⊢
  generalize t ^ (α + 1 / 2) * Real.exp (-t ^ 2 / 2) = g
  linear_combination (norm := (field_simp; ring)) 4 * g * ho

theorem lagU_zero_iff (α : ℝ) (n : ℕ) {t : ℝ} (ht : 0 < t) : lagU α n t = 0 ↔ (monicSeq (lagA α) (lagB α) n).eval (t ^ 2) = 0 := by
  have : t ^ (α + 1 / 2) * Real.exp (-t ^ 2 / 2) ≠ 0 := (mul_pos (Real.rpow_pos_of_pos ht _) (Real.exp_pos _)).ne'
  rw [lagU, mul_eq_zero]
  exact or_iff_right this

section
variable {L : List (ℝ × ℝ)} {n : ℕ} {c : ℝ}

theorem laguerre_zero_iff (hα : -1 < α) (hc : 0 < c) (hn : 0 < n) (h : IsGauss L n (Set.Ioi 0) (lagW α) c) {t : ℝ} (ht : 0 < t) : lagU α n t = 0 ↔ t ^ 2 ∈ L.map Prod.fst := by
  rw [lagU_zero_iff α n ht]
  exact isGauss_zero_iff (integrable_laguerre hα) (laguerre_orthogonal hα) hc (posDef_laguerre hα) hn h _

/-- lower bound of `q` between `s` and `R` -/
theorem lag_q_ge {s t R : ℝ} (hs : 0 < s) (h1 : s ≤ t) (h2 : t ≤ R) :
    4 * n + 2 * α + 2 - R ^ 2 - max 0 (α ^ 2 - 1 / 4) / s ^ 2 ≤ 4 * n + 2 * α + 2 - t ^ 2 + (1 / 4 - α ^ 2) / t ^ 2 := by
  have a1 : t ^ 2 ≤ R ^ 2 := by nlinarith
  have a2 : s ^ 2 ≤ t ^ 2 := by nlinarith
  have a3 : max 0 (α ^ 2 - 1 / 4) / t ^ 2 ≤ max 0 (α ^ 2 - 1 / 4) / s ^ 2 := div_le_div_of_nonneg_left (le_max_left _ _) (by positivity) a2
  have a4 : (α ^ 2 - 1 / 4) / t ^ 2 ≤ max 0 (α ^ 2 - 1 / 4) / t ^ 2 := div_le_div_of_nonneg_right (le_max_right _ _) (by positivity)
  have a5 : (1 / 4 - α ^ 2) / t ^ 2 = -((α ^ 2 - 1 / 4) / t ^ 2) := by ring
  linarith

/-- in `t = √x`, every interval of length `π / ω` on which `q ≥ ω²` contains a node -/
theorem laguerre_node_in (hα : -1 < α) (hc : 0 < c) (hn : 0 < n) (h : IsGauss L n (Set.Ioi 0) (lagW α) c) {R s ω : ℝ} (hs : 0 < s) (hω : 0 < ω)
    (hω2 : ω ^ 2 ≤ 4 * n + 2 * α + 2 - R ^ 2 - max 0 (α ^ 2 - 1 / 4) / s ^ 2) (h2 : s + Real.pi / ω ≤ R) :
    (∃ x ∈ L.map Prod.fst, s < Real.sqrt x ∧ Real.sqrt x ≤ s + Real.pi / ω) ∧ ∃ x ∈ L.map Prod.fst, s ≤ Real.sqrt x ∧ Real.sqrt x < s + Real.pi / ω := by
  have hd : ∀ t ∈ Set.Icc s (s + Real.pi / ω), HasDerivAt (lagU α n) (lagU' α n t) t := fun t ht => lagU_deriv α n (hs.trans_le ht.1)
  have hd' : ∀ t ∈ Set.Icc s (s + Real.pi / ω), HasDerivAt (lagU' α n) (-((4 * n + 2 * α + 2 - t ^ 2 + (1 / 4 - α ^ 2) / t ^ 2) * lagU α n t)) t := fun t ht =>
    lagU'_deriv hα n (hs.trans_le ht.1)
  have hq : ∀ t ∈ Set.Ioo s (s + Real.pi / ω), ω ^ 2 ≤ 4 * n + 2 * α + 2 - t ^ 2 + (1 / 4 - α ^ 2) / t ^ 2 := fun t ht =>
    hω2.trans (lag_q_ge hs ht.1.le (ht.2.le.trans h2))
  constructor
  · obtain ⟨t, ht, hz⟩ := sturm_zero hω rfl hd hd' hq
    have ht0 := hs.trans ht.1
    exact ⟨t ^ 2, (laguerre_zero_iff hα hc hn h ht0).1 hz, by rw [Real.sqrt_sq ht0.le]; exact ht.1, by rw [Real.sqrt_sq ht0.le]; exact ht.2⟩
  · obtain ⟨t, ht, hz⟩ := sturm_zero_left hω rfl hd hd' hq
    have ht0 := hs.trans_le ht.1
    exact ⟨t ^ 2, (laguerre_zero_iff hα hc hn h ht0).1 hz, by rw [Real.sqrt_sq ht0.le]; exact ht.1, by rw [Real.sqrt_sq ht0.le]; exact ht.2⟩

/-- the roots of neighbouring nodes are at least `π / √(4n + 2α + 2 + max(0, 1/4 - α²) / x)` apart, where `x` is the smaller node -/
theorem laguerre_gap (hα : -1 < α) (hc : 0 < c) (hn : 0 < n) (h : IsGauss L n (Set.Ioi 0) (lagW α) c) {x y : ℝ} (hx : x ∈ L.map Prod.fst) (hy : y ∈ L.map Prod.fst) (hx0 : 0 < x)
    (hxy : x < y) : Real.pi / Real.sqrt (4 * n + 2 * α + 2 + max 0 (1 / 4 - α ^ 2) / x) ≤ Real.sqrt y - Real.sqrt x := by
  obtain ⟨z, hz, h1, h2, h3⟩ := next_node hy hxy
  have hpi := Real.pi_pos
  have hsx : 0 < Real.sqrt x := Real.sqrt_pos.2 hx0
  have hsxz : Real.sqrt x < Real.sqrt z := Real.sqrt_lt_sqrt hx0.le h1
  have hszy : Real.sqrt z ≤ Real.sqrt y := Real.sqrt_le_sqrt h2
  have hn1 : (1 : ℝ) ≤ n := by exact_mod_cast hn
  have hQ : 0 < 4 * n + 2 * α + 2 + max 0 (1 / 4 - α ^ 2) / x := by
    have : 0 ≤ max 0 (1 / 4 - α ^ 2) / x := div_nonneg (le_max_left _ _) hx0.le
    linarith
  set Q := 4 * n + 2 * α + 2 + max 0 (1 / 4 - α ^ 2) / x with hQdef
  by_contra hlt
  push Not at hlt
  have hs : 0 < Real.sqrt Q := Real.sqrt_pos.2 hQ
  have hlt' : Real.sqrt z - Real.sqrt x < Real.pi / Real.sqrt Q := by linarith
  have hω : Real.sqrt Q < Real.pi / (Real.sqrt z - Real.sqrt x) := by
    rw [lt_div_iff₀ (by linarith)] at hlt' ⊢
    linarith
  obtain ⟨ω, w1, w2⟩ := exists_between hω
  have hω0 : 0 < ω := hs.trans w1
  have := sturm_gap (u := lagU α n) (u' := lagU' α n) (q := fun t => 4 * n + 2 * α + 2 - t ^ 2 + (1 / 4 - α ^ 2) / t ^ 2) hω0 hsxz (fun t ht => lagU_deriv α n (hsx.trans_le ht.1))
    (fun t ht => lagU'_deriv hα n (hsx.trans_le ht.1))
    (fun t ht => by
      have a1 : Real.sqrt Q ^ 2 = Q := Real.sq_sqrt hQ.le
      have a2 : Real.sqrt Q ^ 2 < ω ^ 2 := by gcongr
      have ht0 : 0 < t := hsx.trans ht.1
      have a3 : x ≤ t ^ 2 := by
        have := Real.sq_sqrt hx0.le
        nlinarith [ht.1]
      have a4 : (1 / 4 - α ^ 2) / t ^ 2 ≤ max 0 (1 / 4 - α ^ 2) / t ^ 2 := div_le_div_of_nonneg_right (le_max_right _ _) (by positivity)
      have a5 : max 0 (1 / 4 - α ^ 2) / t ^ 2 ≤ max 0 (1 / 4 - α ^ 2) / x := div_le_div_of_nonneg_left (le_max_left _ _) hx0 a3
      change 4 * n + 2 * α + 2 - t ^ 2 + (1 / 4 - α ^ 2) / t ^ 2 < ω ^ 2
      have : 0 < t ^ 2 := by positivity
      linarith)
    ((laguerre_zero_iff hα hc hn h hsx).2 (by rwa [Real.sq_sqrt hx0.le])) ((laguerre_zero_iff hα hc hn h (hsx.trans hsxz)).2 (by rwa [Real.sq_sqrt (hx0.trans h1).le]))
    (fun t ht h0 => by
      have ht0 : 0 < t := hsx.trans ht.1
      refine h3 (t ^ 2) ⟨?_, ?_⟩ ((laguerre_zero_iff hα hc hn h ht0).1 h0)
      · have := Real.sq_sqrt hx0.le
        nlinarith [ht.1]
      · have := Real.sq_sqrt (hx0.trans h1).le
        nlinarith [ht.2])
  rw [div_le_iff₀ hω0] at this
  rw [lt_div_iff₀ (by linarith)] at w2
  linarith

/-! ### weights -/

theorem laguerre_reproduces (hα : -1 < α) (hc : 0 < c) (h : IsGauss L n (Set.Ioi 0) (lagW α) c) : Reproduces L (dens (Set.Ioi 0) fun x => c * lagW α x) :=
  reproduces_gauss measurableSet_Ioi (lagW_meas α) (fun _ hx => (lagW_pos α hx).le) (integrable_laguerre hα) hc (posDef_laguerre hα) h.exact'

theorem lagW_integrable (hα : -1 < α) : IntegrableOn (lagW α) (Set.Ioi 0) volume := by simpa using integrable_laguerre hα 1

theorem laguerre_finite (hα : -1 < α) (c : ℝ) : IsFiniteMeasure (dens (Set.Ioi 0) fun x => c * lagW α x) := dens_finite ((lagW_integrable hα).const_mul c)

theorem laguerre_dens (hc : 0 < c) {T : Set ℝ} (hT : MeasurableSet T) : (dens (Set.Ioi 0) fun x => c * lagW α x).real T = c * ∫ x in Set.Ioi 0 ∩ T, lagW α x :=
  dens_real measurableSet_Ioi (lagW_meas α) (fun _ hx => (lagW_pos α hx).le) hc hT

/-- for `|α| ≤ 1/2` the weight function is at most `1 / √x` -/
theorem lagW_le (h1 : -(1 / 2) ≤ α) (h2 : α ≤ 1 / 2) {x : ℝ} (hx : 0 < x) : lagW α x ≤ x ^ (-(1 / 2) : ℝ) := by
  have e : lagW α x = x ^ (-(1 / 2) : ℝ) * (x ^ (α + 1 / 2) * Real.exp (-x)) := by
    rw [lagW, ← mul_assoc, ← Real.rpow_add hx]; congr 2; ring
  have h3 : x ^ (α + 1 / 2) ≤ Real.exp x := by
    have h4 : x ^ (α + 1 / 2) ≤ (x + 1) ^ (α + 1 / 2) := Real.rpow_le_rpow hx.le (by linarith) (by linarith)
    have h5 : (x + 1) ^ (α + 1 / 2) ≤ (x + 1) ^ (1 : ℝ) := Real.rpow_le_rpow_of_exponent_le (by linarith) (by linarith)
    rw [Real.rpow_one] at h5
    exact h4.trans (h5.trans (Real.add_one_le_exp x))
  rw [e]
  refine mul_le_of_le_one_right (Real.rpow_nonneg hx.le _) ?_
  rw [Real.exp_neg, ← div_eq_mul_inv]
  exact (div_le_one (Real.exp_pos x)).2 h3

/-- mass of an interval: at most twice the difference of the roots of the ends -/
theorem laguerre_mass_le (h1 : -(1 / 2) ≤ α) (h2 : α ≤ 1 / 2) {y z : ℝ} (hy : 0 ≤ y) (hyz : y ≤ z) : ∫ x in Set.Ioo y z, lagW α x ≤ 2 * (Real.sqrt z - Real.sqrt y) := by
  have hi : IntervalIntegrable (fun x : ℝ => x ^ (-(1 / 2) : ℝ)) volume y z := intervalIntegral.intervalIntegrable_rpow' (by norm_num)
  have e : ∫ x in y..z, x ^ (-(1 / 2) : ℝ) = 2 * (Real.sqrt z - Real.sqrt y) := by
    rw [integral_rpow (Or.inl (by norm_num)), Real.sqrt_eq_rpow, Real.sqrt_eq_rpow]
    norm_num; ring
  rw [← e, intervalIntegral.integral_of_le hyz, integral_Ioc_eq_integral_Ioo]
  rw [intervalIntegrable_iff_integrableOn_Ioo_of_le hyz] at hi
  refine setIntegral_mono_on ((lagW_integrable (by linarith)).mono_set fun x hx => hy.trans_lt hx.1) hi measurableSet_Ioo fun x hx => lagW_le h1 h2 (hy.trans_lt hx.1)

/-- tail of the weight function -/
theorem laguerre_tail (h1 : -(1 / 2) ≤ α) (h2 : α ≤ 1 / 2) {A : ℝ} (hA : 1 ≤ A) : ∫ x in Set.Ioi A, lagW α x ≤ 2 * Real.exp (-A / 2) := by
  have hi : IntegrableOn (fun x => Real.exp (-(1 / 2) * x)) (Set.Ioi A) := integrableOn_exp_mul_Ioi (by norm_num) A
  have e : ∫ x in Set.Ioi A, Real.exp (-(1 / 2) * x) = 2 * Real.exp (-A / 2) := by
    rw [integral_exp_mul_Ioi (by norm_num)]
    rw [show -(1 / 2) * A = -A / 2 by ring]; ring
  rw [← e]
  refine setIntegral_mono_on ((lagW_integrable (by linarith)).mono_set fun x hx => lt_trans (show (0 : ℝ) < A by linarith) hx) hi measurableSet_Ioi fun x hx => ?_
  have hx1 : 1 ≤ x := hA.trans (le_of_lt hx)
  have h3 : x ^ α ≤ Real.exp (x / 2) := by
    have h4 : x ^ α ≤ x ^ (1 / 2 : ℝ) := Real.rpow_le_rpow_of_exponent_le hx1 h2
    rw [← Real.sqrt_eq_rpow] at h4
    have h5 : Real.sqrt x ≤ x / 2 + 1 := by
      rw [Real.sqrt_le_left (by linarith)]
      nlinarith [sq_nonneg x]
    exact h4.trans (h5.trans (Real.add_one_le_exp _))
  rw [lagW, show -(1 / 2) * x = x / 2 + -x by ring, Real.exp_add]
  exact mul_le_mul_of_nonneg_right h3 (Real.exp_pos _).le

/-- for `|α| ≤ 1/2` the mass of the weight function is at most `√π` -/
theorem gamma_le_sqrt_pi (h1 : -(1 / 2) ≤ α) (h2 : α ≤ 1 / 2) : Real.Gamma (α + 1) ≤ Real.sqrt Real.pi := by
  have hc := Real.convexOn_Gamma.2 (show (1 / 2 : ℝ) ∈ Set.Ioi (0 : ℝ) by norm_num) (show (3 / 2 : ℝ) ∈ Set.Ioi (0 : ℝ) by norm_num) (show 0 ≤ 1 / 2 - α by linarith)
    (show 0 ≤ 1 / 2 + α by linarith) (by ring)
  have e1 : Real.Gamma (3 / 2) = 1 / 2 * Real.sqrt Real.pi := by
    rw [show (3 / 2 : ℝ) = 1 / 2 + 1 by norm_num, Real.Gamma_add_one (by norm_num), Real.Gamma_one_half_eq]
  simp only [smul_eq_mul, Real.Gamma_one_half_eq, e1] at hc
  rw [show (1 / 2 - α) * (1 / 2) + (1 / 2 + α) * (3 / 2) = α + 1 by ring] at hc
  have := Real.sqrt_nonneg Real.pi
  nlinarith

/-- a weight whose node is not too far out is at most the mass of the weight function near the node -/
theorem laguerre_weight_near (h1 : -(1 / 2) ≤ α) (h2 : α ≤ 1 / 2) (hc : 0 < c) (hn : 0 < n) (h : IsGauss L n (Set.Ioi 0) (lagW α) c) {R ω : ℝ} (hω : 0 < ω)
    (hω2 : ω ^ 2 ≤ 4 * n + 2 * α + 2 - R ^ 2) {q : ℝ × ℝ} (hq : q ∈ L) (hqR : Real.sqrt q.1 + Real.pi / ω ≤ R) : q.2 ≤ c * (4 * (Real.pi / ω)) := by
  have hα : -1 < α := by linarith
  have hfin := laguerre_finite hα c
  have hr := laguerre_reproduces hα hc h
  have hδ : 0 < Real.pi / ω := div_pos Real.pi_pos hω
  have hmax : max 0 (α ^ 2 - 1 / 4) = 0 := max_eq_left (by nlinarith)
  have hpos : ∀ x ∈ L.map Prod.fst, 0 < x := fun x hx => by
    obtain ⟨p, hp, rfl⟩ := List.mem_map.1 hx
    exact gauss_nodes_gt hc h.exact' (posDef_laguerre hα) (fun x hx => (show (0 : ℝ) < x from hx).le) p hp
  have hq0 : 0 < q.1 := hpos _ (List.mem_map.2 ⟨q, hq, rfl⟩)
  have hs0 : 0 < Real.sqrt q.1 := Real.sqrt_pos.2 hq0
  obtain ⟨⟨z, hz, z1, z2⟩, -⟩ := laguerre_node_in hα hc hn h hs0 hω (by rw [hmax, zero_div, sub_zero]; exact hω2) hqR
  have hzq : q.1 < z := by
    by_contra hn
    exact absurd (Real.sqrt_le_sqrt (not_lt.1 hn)) (not_le.2 z1)
  have hint : IntegrableOn (lagW α) (Set.Ioi 0) volume := lagW_integrable hα
  rcases lt_or_ge (Real.pi / ω) (Real.sqrt q.1) with hlt | hge
  · obtain ⟨-, y, hy, y1, y2⟩ := laguerre_node_in hα hc hn h (s := Real.sqrt q.1 - Real.pi / ω) (R := R) (by linarith) hω (by rw [hmax, zero_div, sub_zero]; exact hω2) (by linarith)
    have hyq : y < q.1 := by
      by_contra hn
      exact absurd (Real.sqrt_le_sqrt (not_lt.1 hn)) (not_le.2 (by linarith))
    have hy0 := hpos y hy
    refine (hr.weight_le hq hy hz hyq hzq).trans ?_
    rw [laguerre_dens hc measurableSet_Ioo]
    refine mul_le_mul_of_nonneg_left ?_ hc.le
    rw [Set.inter_eq_right.2 (show Set.Ioo y z ⊆ Set.Ioi 0 from fun x hx => hy0.trans hx.1)]
    refine (laguerre_mass_le h1 h2 hy0.le (hyq.trans hzq).le).trans ?_
    linarith
  · refine (hr.weight_le_left hq hz hzq).trans ?_
    rw [laguerre_dens hc measurableSet_Iio]
    refine mul_le_mul_of_nonneg_left ?_ hc.le
    rw [Set.Ioi_inter_Iio]
    refine (laguerre_mass_le h1 h2 le_rfl (hpos z hz).le).trans ?_
    rw [Real.sqrt_zero]
    linarith

/-- for `|α| ≤ 1/2` every weight is at most `4π / √(2n + 1)`, up to the common factor of the weights -/
theorem laguerre_weight_le (h1 : -(1 / 2) ≤ α) (h2 : α ≤ 1 / 2) (hc : 0 < c) (hn : 0 < n) (h : IsGauss L n (Set.Ioi 0) (lagW α) c) {q : ℝ × ℝ} (hq : q ∈ L) :
    q.2 ≤ c * (4 * Real.pi / Real.sqrt (2 * n + 1)) := by
  have hα : -1 < α := by linarith
  have hfin := laguerre_finite hα c
  have hr := laguerre_reproduces hα hc h
  have hpi := Real.pi_pos
  have p1 := Real.pi_gt_d2
  have p2 := Real.pi_lt_d2
  have hm : 0 < Real.sqrt (2 * n + 1) := Real.sqrt_pos.2 (by positivity)
  have hm2 : Real.sqrt (2 * n + 1) ^ 2 = 2 * n + 1 := Real.sq_sqrt (by positivity)
  have hsp2 : Real.sqrt Real.pi ^ 2 = Real.pi := Real.sq_sqrt hpi.le
  by_cases hsmall : n < 24
  · refine (hr.weight_le_mass hq).trans ?_
    rw [laguerre_dens hc MeasurableSet.univ, Set.inter_univ, laguerre_mass hα]
    refine mul_le_mul_of_nonneg_left ((gamma_le_sqrt_pi h1 h2).trans ?_) hc.le
    rw [le_div_iff₀ hm]
    have : 2 * (n : ℝ) + 1 ≤ 47 := by exact_mod_cast (by omega : 2 * n + 1 ≤ 47)
    have h3 : (Real.sqrt Real.pi * Real.sqrt (2 * n + 1)) ^ 2 ≤ (4 * Real.pi) ^ 2 := by
      rw [mul_pow, hsp2, hm2]; nlinarith
    exact abs_le_of_sq_le_sq' h3 (by positivity) |>.2
  have hn24 : (24 : ℝ) ≤ n := by exact_mod_cast not_lt.1 hsmall
  have hR : Real.sqrt (2 * n) ^ 2 = 2 * n := Real.sq_sqrt (by positivity)
  have hω2 : Real.sqrt (2 * n + 1) ^ 2 ≤ 4 * n + 2 * α + 2 - Real.sqrt (2 * n) ^ 2 := by rw [hm2, hR]; linarith
  have hδ : 0 < Real.pi / Real.sqrt (2 * n + 1) := div_pos hpi hm
  by_cases hin : Real.sqrt q.1 + Real.pi / Real.sqrt (2 * n + 1) ≤ Real.sqrt (2 * n)
  · refine (laguerre_weight_near h1 h2 hc hn h hm hω2 hq hin).trans (le_of_eq ?_)
    ring
  push Not at hin
  have hmR : Real.sqrt (2 * n) ≤ Real.sqrt (2 * n + 1) := Real.sqrt_le_sqrt (by linarith)
  have hR3 : 6.9 ≤ Real.sqrt (2 * n) := Real.le_sqrt_of_sq_le (by norm_num; linarith)
  have hm7 : 7 ≤ Real.sqrt (2 * n + 1) := Real.le_sqrt_of_sq_le (by norm_num; linarith)
  have hδm : Real.pi / Real.sqrt (2 * n + 1) * Real.sqrt (2 * n + 1) = Real.pi := by field_simp
  have e4 : 4 * Real.pi / Real.sqrt (2 * n + 1) = 4 * (Real.pi / Real.sqrt (2 * n + 1)) := by ring
  have hδ2 : Real.pi / Real.sqrt (2 * n + 1) ≤ 0.45 := by rw [div_le_iff₀ hm]; linarith
  rw [e4]
  set δ := Real.pi / Real.sqrt (2 * n + 1) with hδdef
  set s := Real.sqrt (2 * n) - 2 * δ with hsdef
  have hs6 : 6 ≤ s := by rw [hsdef]; linarith
  have hmax : max 0 (α ^ 2 - 1 / 4) = 0 := max_eq_left (by nlinarith)
  obtain ⟨⟨y, hy, y1, y2⟩, -⟩ := laguerre_node_in hα hc hn h (s := s) (R := Real.sqrt (2 * n)) (by linarith) hm (by rw [hmax, zero_div, sub_zero]; exact hω2) (by rw [← hδdef]; linarith)
  rw [← hδdef] at y2
  have hyq : y < q.1 := by
    by_contra hn
    exact absurd (Real.sqrt_le_sqrt (not_lt.1 hn)) (not_le.2 (by linarith))
  have hsy : s ^ 2 ≤ y := by
    have hy0 : 0 ≤ y := by
      by_contra hn
      rw [Real.sqrt_eq_zero_of_nonpos (not_le.1 hn).le] at y1
      linarith
    have := Real.sq_sqrt hy0
    nlinarith
  refine (hr.weight_le_right hq hy hyq).trans ?_
  refine (measureReal_mono (Set.Ioi_subset_Ioi hsy)).trans ?_
  rw [laguerre_dens hc measurableSet_Ioi]
  refine mul_le_mul_of_nonneg_left ?_ hc.le
  rw [Set.inter_eq_right.2 (Set.Ioi_subset_Ioi (sq_nonneg s))]
  refine (laguerre_tail h1 h2 (by nlinarith)).trans ?_
  have hA : 2 * n - 12.6 ≤ s ^ 2 := by
    have : Real.sqrt (2 * n) * δ ≤ Real.pi := by rw [← hδm, mul_comm δ]; exact mul_le_mul_of_nonneg_right hmR hδ.le
    have e : s ^ 2 = Real.sqrt (2 * n) ^ 2 - 4 * (Real.sqrt (2 * n) * δ) + 4 * δ ^ 2 := by rw [hsdef]; ring
    rw [e, hR]
    linarith [sq_nonneg δ]
  have hexp : Real.exp (-s ^ 2 / 2) ≤ 1 / (1 + s ^ 2 / 2) := by
    rw [show -s ^ 2 / 2 = -(s ^ 2 / 2) by ring, Real.exp_neg, ← one_div]
    refine one_div_le_one_div_of_le (by positivity) ?_
    linarith [Real.add_one_le_exp (s ^ 2 / 2)]
  have hfin : 1 / (1 + s ^ 2 / 2) ≤ δ := by
    rw [hδdef, div_le_div_iff₀ (by positivity) hm, one_mul]
    have h3 : Real.sqrt (2 * n + 1) ≤ 2 * n - 12.6 := by
      have := mul_le_mul_of_nonneg_right hm7 hm.le
      rw [← pow_two, hm2] at this
      linarith
    have h4 : 3 * (1 + s ^ 2 / 2) ≤ Real.pi * (1 + s ^ 2 / 2) := mul_le_mul_of_nonneg_right (by linarith) (by positivity)
    linarith
  linarith

end

end GaussQuad
