import Verif.Proofs.LaplaceTail
import Verif.Props.GaussError
import Verif.Props.GammaAccuracy

/-!
# C108: exponentials, oscillations and Gaussians

Explicit rates for Gauss-Laguerre (`/repo/src/laguerre/mod.rs:75-127`), Gauss-Hermite (`/repo/src/hermite/mod.rs:69-116`), Gauss-Legendre (`/repo/src/legendre/mod.rs:83-142`)
and Gauss-Chebyshev (`/repo/src/chebyshev/mod.rs`).
-/

namespace GaussQuad.Props
open Polynomial Spec FloatOps MeasureTheory

/-- a polynomial the rule integrates exactly, close to the integrand relative to `g` -/
theorem gauss_error_of_approx {L : List (ℝ × ℝ)} {n : ℕ} {S : Set ℝ} {w : ℝ → ℝ} {c : ℝ} (hSm : MeasurableSet S) (hc : 0 < c) (h : IsGauss L n S w c) (hpos : PosDef S w)
    (hint : ∀ p : ℝ[X], IntegrableOn (fun x => p.eval x * w x) S) (hw : ∀ x ∈ S, 0 ≤ w x) (hS : ∀ p ∈ L, p.1 ∈ S) {f g : ℝ → ℝ} {p : ℝ[X]} {K : ℝ}
    (hp : p.natDegree ≤ 2 * n - 1) (happ : ∀ x ∈ S, |f x - p.eval x| ≤ K * g x) (hf : IntegrableOn (fun x => f x * w x) S) (hg : IntegrableOn (fun x => g x * w x) S)
    (hq : K * quad L g ≤ K * (c * ∫ x in S, g x * w x)) :
    |quad L f - c * ∫ x in S, f x * w x| ≤ 2 * (c * (K * ∫ x in S, g x * w x)) := by
  have hwp : ∀ q ∈ L, 0 ≤ q.2 := fun q hq => (gauss_weights_pos hc h.exact' hpos q hq).le
  have hex := h.exact' p (by rwa [h.length])
  rw [weightIntegral] at hex
  have hKq : ∀ (K : ℝ) (q : ℝ → ℝ), quad L (fun x => K * q x) = K * quad L q := fun K q => by
    simp only [quad, ← List.sum_map_mul_left]
    congr 1
    exact List.map_congr_left fun x _ => by ring
  have h1 : |quad L f - quad L (fun x => p.eval x)| ≤ c * (K * ∫ x in S, g x * w x) := by
    rw [quad_sub, abs_le]
    constructor
    · have := quad_mono (f := fun x => -(K * g x)) (g := fun x => f x - p.eval x) hwp fun q hq => by
        have := (abs_le.1 (happ q.1 (hS q hq))).1
        linarith
      have e : quad L (fun x => -(K * g x)) = -(K * quad L g) := by
        rw [← neg_mul, ← hKq]; simp only [neg_mul]
      rw [e] at this
      nlinarith
    · have := quad_mono (f := fun x => f x - p.eval x) (g := fun x => K * g x) hwp fun q hq => by
        have := (abs_le.1 (happ q.1 (hS q hq))).2
        linarith
      rw [hKq] at this
      nlinarith
  have h2 : |(∫ x in S, f x * w x) - ∫ x in S, p.eval x * w x| ≤ K * ∫ x in S, g x * w x := by
    rw [← integral_sub hf (hint p), ← integral_const_mul]
    rw [← Real.norm_eq_abs]
    refine (norm_integral_le_of_norm_le (hg.const_mul K) ?_)
    refine (ae_restrict_iff' hSm).2 (Filter.Eventually.of_forall fun x hx => ?_)
    rw [← sub_mul, norm_mul, Real.norm_eq_abs, Real.norm_eq_abs, abs_of_nonneg (hw x hx), ← mul_assoc]
    exact mul_le_mul_of_nonneg_right (happ x hx) (hw x hx)
  have e : quad L f - c * ∫ x in S, f x * w x = (quad L f - quad L fun x => p.eval x) - c * ((∫ x in S, f x * w x) - ∫ x in S, p.eval x * w x) := by
    rw [hex]; ring
  rw [e]
  refine (abs_sub _ _).trans ?_
  rw [abs_mul, abs_of_pos hc]
  have := mul_le_mul_of_nonneg_left h2 hc.le
  linarith

theorem laguerre_half {α : ℝ} (hα : -1 < α) : ∫ x in Set.Ioi (0 : ℝ), Real.exp (1 / 2 * x) * lagW α x = 2 ^ (α + 1) * Real.Gamma (α + 1) := by
  have h := Real.integral_rpow_mul_exp_neg_mul_Ioi (a := α + 1) (r := 1 / 2) (by linarith) (by norm_num)
  rw [show (1 / (1 / 2) : ℝ) = 2 by norm_num] at h
  rw [← h]
  refine setIntegral_congr_fun measurableSet_Ioi fun x _ => ?_
  simp only [lagW, add_sub_cancel_right]
  rw [mul_left_comm, ← Real.exp_add]
  congr 2; ring

theorem hermite_half : ∫ x : ℝ, Real.exp (1 / 2 * x ^ 2) * hermW x = Real.sqrt (2 * Real.pi) := by
  have h := integral_gaussian (1 / 2)
  rw [show Real.pi / (1 / 2) = 2 * Real.pi by ring] at h
  rw [← h]
  congr 1
  funext x
  rw [hermW, ← Real.exp_add]
  congr 1; ring

/-- the ratio of the geometric rate -/
noncomputable def rate (κ ω : ℝ) : ℝ := Real.sqrt ((κ ^ 2 + ω ^ 2) / ((1 + κ) ^ 2 + ω ^ 2))

theorem rate_lt_one {κ ω : ℝ} (hκ : -(1 / 2) < κ) : rate κ ω < 1 := by
  rw [rate, Real.sqrt_lt' one_pos, one_pow, div_lt_one (by nlinarith)]
  nlinarith

theorem osc_re (κ ω φ x : ℝ) : (Complex.exp (φ * Complex.I) * Complex.exp (-((κ - ω * Complex.I) * x))).re = Real.exp (-(κ * x)) * Real.cos (ω * x + φ) := by
  rw [← Complex.exp_add, show (φ * Complex.I + -((κ - ω * Complex.I) * x) : ℂ) = ((-(κ * x) : ℝ) : ℂ) + ((ω * x + φ : ℝ) : ℂ) * Complex.I by push_cast; ring, Complex.exp_add, ← Complex.ofReal_exp,
    Complex.re_ofReal_mul, Complex.exp_ofReal_mul_I_re]

theorem osc_approx {κ : ℝ} (hκ : -(1 / 2) < κ) (ω φ : ℝ) (N : ℕ) : ∃ p : ℝ[X], p.natDegree ≤ N - 1 ∧ ∀ x : ℝ, 0 ≤ x →
    |Real.exp (-(κ * x)) * Real.cos (ω * x + φ) - p.eval x| ≤ rate κ ω ^ N / (1 - rate κ ω) * Real.exp (1 / 2 * x) := by
  obtain ⟨p, h1, h2⟩ := laplace_approx (s := κ - ω * Complex.I) (by simpa using hκ) (Complex.exp (φ * Complex.I)) N
  refine ⟨p, h1, fun x hx => ?_⟩
  have h := h2 x hx
  have hr : ‖(κ - ω * Complex.I) / (1 + (κ - ω * Complex.I))‖ = rate κ ω := by
    rw [norm_div, rate, Real.sqrt_div' _ (by positivity)]
    congr 1
    · rw [Complex.norm_def, Complex.normSq_apply]
      congr 1
      simp
      ring
    · rw [Complex.norm_def, Complex.normSq_apply]
      congr 1
      simp
      ring
  rw [osc_re, hr, Complex.norm_exp_ofReal_mul_I, one_mul] at h
  exact h

theorem osc_bound {κ : ℝ} (hκ : -(1 / 2) < κ) (ω φ : ℝ) {x : ℝ} (hx : 0 ≤ x) : |Real.exp (-(κ * x)) * Real.cos (ω * x + φ)| ≤ Real.exp (1 / 2 * x) := by
  rw [abs_mul, abs_of_pos (Real.exp_pos _)]
  calc Real.exp (-(κ * x)) * |Real.cos (ω * x + φ)| ≤ Real.exp (-(κ * x)) * 1 := mul_le_mul_of_nonneg_left (Real.abs_cos_le_one _) (Real.exp_pos _).le
    _ ≤ Real.exp (1 / 2 * x) := by rw [mul_one]; exact Real.exp_le_exp.2 (by nlinarith)

/-- C108: Gauss-Laguerre converges geometrically for `exp (-κx) cos (ωx + φ)`, `κ > -1/2` -/
theorem C108_laguerre {ext : Externals ℝ} (hext : ExactSolver ext) {n : ℕ} (hn : 0 < n) {α : FiniteAboveNegOne ℝ} (hα : -1 < α.get) :
    ∃ (r : LaguerreRule ℝ) (c : ℝ), GaussLaguerre.new ext n α = some r ∧ |c - 1| ≤ 2e-12 ∧ ∀ κ ω φ a b θ : ℝ, -(1 / 2) < κ → θ = Real.sqrt ((κ ^ 2 + ω ^ 2) / ((1 + κ) ^ 2 + ω ^ 2)) →
      θ < 1 ∧ |(AnyRule.laguerre r).value a b (fun x => Real.exp (-(κ * x)) * Real.cos (ω * x + φ)) -
          c * ∫ x in Set.Ioi 0, (Real.exp (-(κ * x)) * Real.cos (ω * x + φ)) * (x ^ α.get * Real.exp (-x))| ≤
        c * (2 ^ (α.get + 2) * Real.Gamma (α.get + 1) * (θ ^ (2 * n) / (1 - θ))) := by
  obtain ⟨r, h1, -, h2⟩ := laguerre_gauss hext hn α hα
  have hc := laguerre_factor_pos hα
  refine ⟨r, _, h1, C49_gamma_accurate (x := α.get + 1) (fun m h => by
    have : (0 : ℝ) ≤ m := Nat.cast_nonneg m
    linarith), fun κ ω φ a b θ hκ hθ => ?_⟩
  change θ = rate κ ω at hθ
  subst hθ
  have hθ := rate_lt_one (ω := ω) hκ
  have hθ0 : 0 ≤ rate κ ω := Real.sqrt_nonneg _
  refine ⟨hθ, ?_⟩
  obtain ⟨p, hp, happ⟩ := osc_approx hκ ω φ (2 * n)
  have hK : 0 ≤ rate κ ω ^ (2 * n) / (1 - rate κ ω) := div_nonneg (by positivity) (by linarith)
  have hg := laguerre_exp_integrable hα (s := 1 / 2) (by norm_num)
  have hf : IntegrableOn (fun x => (Real.exp (-(κ * x)) * Real.cos (ω * x + φ)) * lagW α.get x) (Set.Ioi 0) := by
    refine hg.mono' ?_ ?_
    · have := lagW_meas α.get
      exact (Measurable.aestronglyMeasurable (by fun_prop))
    · refine (ae_restrict_iff' measurableSet_Ioi).2 (Filter.Eventually.of_forall fun x hx => ?_)
      rw [norm_mul, Real.norm_eq_abs, Real.norm_eq_abs, abs_of_pos (lagW_pos α.get hx)]
      exact mul_le_mul_of_nonneg_right (osc_bound hκ ω φ (show (0 : ℝ) < x from hx).le) (lagW_pos α.get hx).le
  have h := gauss_error_of_approx measurableSet_Ioi hc h2 (posDef_laguerre hα) (integrable_laguerre hα) (fun x hx => (lagW_pos α.get hx).le)
    (gauss_nodes_gt hc h2.exact' (posDef_laguerre hα) (fun x hx => (show (0 : ℝ) < x from hx).le)) hp (fun x hx => happ x (show (0 : ℝ) < x from hx).le) hf hg
    (mul_le_mul_of_nonneg_left (laguerre_exp_le hα hn hc h2 (by norm_num) (by norm_num)) hK)
  rw [laguerre_half hα] at h
  rw [value_real]
  refine h.trans (le_of_eq ?_)
  rw [show α.get + 2 = α.get + 1 + 1 by ring, Real.rpow_add_one (by norm_num) (α.get + 1)]
  ring

/-- C108: Gauss-Hermite converges geometrically for `exp (-κx²) cos (ωx² + φ)`, `κ > -1/2` -/
theorem C108_hermite {ext : Externals ℝ} (hext : ExactSolver ext) {n : ℕ} (hn : 0 < n) :
    ∃ r : Rule ℝ, GaussHermite.new ext n = some r ∧ ∀ κ ω φ a b θ : ℝ, -(1 / 2) < κ → θ = Real.sqrt ((κ ^ 2 + ω ^ 2) / ((1 + κ) ^ 2 + ω ^ 2)) →
      θ < 1 ∧ |(AnyRule.hermite r).value a b (fun x => Real.exp (-(κ * x ^ 2)) * Real.cos (ω * x ^ 2 + φ)) - ∫ x, (Real.exp (-(κ * x ^ 2)) * Real.cos (ω * x ^ 2 + φ)) * Real.exp (-x ^ 2)| ≤
        2 * Real.sqrt (2 * Real.pi) * (θ ^ n / (1 - θ)) := by
  obtain ⟨r, h1, h2⟩ := hermite_gauss hext hn
  refine ⟨r, h1, fun κ ω φ a b θ hκ hθ => ?_⟩
  change θ = rate κ ω at hθ
  subst hθ
  have hθ := rate_lt_one (ω := ω) hκ
  have hθ0 : 0 ≤ rate κ ω := Real.sqrt_nonneg _
  refine ⟨hθ, ?_⟩
  obtain ⟨p, hp, happ⟩ := osc_approx hκ ω φ n
  have hK : 0 ≤ rate κ ω ^ n / (1 - rate κ ω) := div_nonneg (by positivity) (by linarith)
  have hg : IntegrableOn (fun x : ℝ => Real.exp (1 / 2 * x ^ 2) * hermW x) Set.univ := (hermite_exp_integrable (s := 1 / 2) (by norm_num)).integrableOn
  have hf : IntegrableOn (fun x => (Real.exp (-(κ * x ^ 2)) * Real.cos (ω * x ^ 2 + φ)) * hermW x) Set.univ := by
    refine hg.mono' ?_ ?_
    · have := hermW_meas
      exact (Measurable.aestronglyMeasurable (by fun_prop))
    · refine Filter.Eventually.of_forall fun x => ?_
      rw [norm_mul, Real.norm_eq_abs, Real.norm_eq_abs, abs_of_pos (hermW_pos x)]
      exact mul_le_mul_of_nonneg_right (osc_bound hκ ω φ (sq_nonneg x)) (hermW_pos x).le
  have hpd : (p.comp (X ^ 2)).natDegree ≤ 2 * n - 1 := by
    rw [natDegree_comp, natDegree_X_pow]
    omega
  have h := gauss_error_of_approx (p := p.comp (X ^ 2)) (f := fun x => Real.exp (-(κ * x ^ 2)) * Real.cos (ω * x ^ 2 + φ)) (g := fun x => Real.exp (1 / 2 * x ^ 2)) MeasurableSet.univ one_pos h2
    posDef_hermite integrable_hermite (fun x _ => (hermW_pos x).le) (fun _ _ => Set.mem_univ _) hpd
    (fun x _ => by rw [eval_comp, eval_pow, eval_X]; exact happ (x ^ 2) (sq_nonneg x)) hf hg
    (mul_le_mul_of_nonneg_left (by have := hermite_exp_le hn h2 (s := 1 / 2) (by norm_num) (by norm_num); simpa using this) hK)
  rw [setIntegral_univ, setIntegral_univ, hermite_half, one_mul, one_mul] at h
  rw [value_real]
  refine h.trans (le_of_eq ?_)
  ring

/-! ### `cos (ωx + φ)` -/

theorem smooth_osc (ω φ : ℝ) (N : ℕ) (S : Set ℝ) : SmoothOn (fun x => Real.cos (ω * x + φ)) N (|ω| ^ N) S := by
  refine ⟨ContDiff.contDiffOn (by fun_prop), fun x _ => ?_⟩
  have h : ∀ k, iteratedDeriv k (fun x => Real.cos (ω * x + φ)) = fun x => ω ^ k * Real.cos (ω * x + φ + k * (Real.pi / 2)) := by
    intro k
    induction k with
    | zero => funext x; simp
    | succ k ih =>
      rw [iteratedDeriv_succ, ih]
      funext x
      exact (cos_derivs ω φ (k + 1) Set.univ k (Nat.lt_succ_self k) x (Set.mem_univ x)).deriv
  rw [h, abs_mul, abs_pow]
  exact mul_le_of_le_one_right (by positivity) (Real.abs_cos_le_one _)

/-- C108: Gauss-Hermite for `cos (ωx + φ)` -/
theorem C108_hermite_cos {ext : Externals ℝ} (hext : ExactSolver ext) {n : ℕ} (hn : 0 < n) (ω φ a b : ℝ) :
    ∃ r : Rule ℝ, GaussHermite.new ext n = some r ∧
      |(AnyRule.hermite r).value a b (fun x => Real.cos (ω * x + φ)) - ∫ x, Real.cos (ω * x + φ) * Real.exp (-x ^ 2)| ≤ Real.sqrt Real.pi * (ω ^ 2 / (2 * (n + 1))) ^ n := by
  obtain ⟨r, h1, -, h2⟩ := C66_hermite hext hn (smooth_osc ω φ (2 * n) Set.univ) a b
  refine ⟨r, h1, h2.trans ?_⟩
  have hf : (n.factorial : ℝ) * ((n : ℝ) + 1) ^ n ≤ (2 * n).factorial := by
    have := Nat.factorial_mul_pow_le_factorial (m := n) (n := n)
    rw [← two_mul] at this
    exact_mod_cast this
  have hF : (0 : ℝ) < (2 * n).factorial := by positivity
  have hω : (|ω| ^ (2 * n) : ℝ) = (ω ^ 2) ^ n := by rw [pow_mul, sq_abs]
  rw [hω, div_pow, mul_pow, div_mul_div_comm, mul_div_assoc', div_le_div_iff₀ (by positivity) (by positivity)]
  have h0 : 0 ≤ (ω ^ 2) ^ n * Real.sqrt Real.pi * 2 ^ n := by positivity
  nlinarith [mul_le_mul_of_nonneg_left hf h0]

/-- C108: Gauss-Legendre for `cos (ωx + φ)`; the last terms are the errors of the tabulated and asymptotic nodes and weights -/
theorem C108_legendre (mode : Overflow) {n : ℕ} (hn : 0 < n) (hlt : n + 1 < 2 ^ 64) :
    ∃ r : Rule ℝ, GaussLegendre.new mode n = some r ∧ ∀ a b ω φ : ℝ, a < b →
      |(AnyRule.legendre r).value a b (fun x => Real.cos (ω * x + φ)) - ∫ t in a..b, Real.cos (ω * t + φ)| ≤
        (b - a) * ((|ω| * (b - a) / 4) ^ (2 * n) / (2 * n - 1).factorial + 2.5e-15 + 1e-16 * (|ω| * (b - a))) := by
  obtain ⟨r, h1, h2⟩ := C66_legendre mode hn hlt
  refine ⟨r, h1, fun a b ω φ hab => ?_⟩
  refine ((h2 a b _ _ 1 |ω| hab (smooth_osc ω φ (2 * n) _) (fun x _ => Real.abs_cos_le_one _) (fun x _ y _ => ?_) (abs_nonneg ω)).2).trans ?_
  · refine (Real.abs_cos_sub_cos_le _ _).trans ?_
    rw [show ω * x + φ - (ω * y + φ) = ω * (x - y) by ring, abs_mul]
  · have hd : 0 < b - a := by linarith
    have hn1 : (1 : ℝ) ≤ n := by exact_mod_cast hn
    have hb : (4 : ℝ) ^ n * (n.factorial : ℝ) ^ 2 ≤ 2 * n * (2 * n).factorial := by
      have e := Nat.four_pow_le_two_mul_self_mul_centralBinom n hn
      have e2 : Nat.centralBinom n * n.factorial ^ 2 = (2 * n).factorial := by
        rw [Nat.centralBinom, sq, ← mul_assoc]
        have := Nat.choose_mul_factorial_mul_factorial (show n ≤ 2 * n by omega)
        rwa [show 2 * n - n = n by omega] at this
      have e3 : (4 : ℝ) ^ n ≤ 2 * n * Nat.centralBinom n := by exact_mod_cast e
      have e4 : (Nat.centralBinom n : ℝ) * (n.factorial : ℝ) ^ 2 = (2 * n).factorial := by exact_mod_cast e2
      calc (4 : ℝ) ^ n * (n.factorial : ℝ) ^ 2 ≤ (2 * n * Nat.centralBinom n) * (n.factorial : ℝ) ^ 2 := mul_le_mul_of_nonneg_right e3 (by positivity)
        _ = _ := by rw [mul_assoc, e4]
    have hfac : ((2 * n).factorial : ℝ) = 2 * n * (2 * n - 1).factorial := by
      obtain ⟨m, hm⟩ : ∃ m, 2 * n = m + 1 := ⟨2 * n - 1, by omega⟩
      have hm' : (2 * (n : ℝ)) = m + 1 := by exact_mod_cast hm
      rw [hm, Nat.factorial_succ, Nat.add_sub_cancel, hm']
      push_cast
      ring
    have key : (n.factorial : ℝ) ^ 4 / ((2 * n + 1) * ((2 * n).factorial : ℝ) ^ 3) ≤ 1 / 4 ^ (2 * n) / (2 * n - 1).factorial := by
      have h4 : ((4 : ℝ) ^ n * (n.factorial : ℝ) ^ 2) ^ 2 ≤ (2 * n * (2 * n).factorial) ^ 2 := pow_le_pow_left₀ (by positivity) hb 2
      have hF : (0 : ℝ) < (2 * n).factorial := by positivity
      have hG : (0 : ℝ) < (2 * n - 1).factorial := by positivity
      rw [div_div, div_le_div_iff₀ (by positivity) (by positivity), one_mul]
      have e5 : (n.factorial : ℝ) ^ 4 * (4 ^ (2 * n) * (2 * n - 1).factorial) = ((4 : ℝ) ^ n * (n.factorial : ℝ) ^ 2) ^ 2 * (2 * n - 1).factorial := by
        rw [show 2 * n = n * 2 by ring, pow_mul]; ring
      rw [e5]
      calc ((4 : ℝ) ^ n * (n.factorial : ℝ) ^ 2) ^ 2 * (2 * n - 1).factorial ≤ (2 * n * (2 * n).factorial) ^ 2 * (2 * n - 1).factorial := mul_le_mul_of_nonneg_right h4 hG.le
        _ = 2 * n * ((2 * n).factorial : ℝ) ^ 2 * (2 * n * (2 * n - 1).factorial) := by ring
        _ = 2 * n * ((2 * n).factorial : ℝ) ^ 3 := by rw [← hfac]; ring
        _ ≤ (2 * n + 1) * ((2 * n).factorial : ℝ) ^ 3 := mul_le_mul_of_nonneg_right (by linarith) (by positivity)
    have h0 : 0 ≤ |ω| ^ (2 * n) * (b - a) ^ (2 * n + 1) := by positivity
    have := mul_le_mul_of_nonneg_left key h0
    have e6 : |ω| ^ (2 * n) * (b - a) ^ (2 * n + 1) * (1 / 4 ^ (2 * n) / (2 * n - 1).factorial) = (b - a) * ((|ω| * (b - a) / 4) ^ (2 * n) / (2 * n - 1).factorial) := by
      rw [div_pow, mul_pow, pow_succ]; ring
    rw [e6, ← mul_div_assoc] at this
    linarith

/-- C108: Gauss-Chebyshev for `cos (ωx + φ)` -/
theorem C108_chebyshev (mode : Overflow) {n : ℕ} (hn : 0 < n) (hlt : n + 1 < 2 ^ 64) {a b : ℝ} (hab : a < b) (ω φ : ℝ) :
    (∃ r : Rule ℝ, GaussChebyshevFirstKind.new mode n = some r ∧
      |(AnyRule.chebyshevFirst r).value a b (fun x => Real.cos (ω * x + φ)) - ∫ t in a..b, Real.cos (ω * t + φ) * (1 / Real.sqrt (1 - ((2 * t - a - b) / (b - a)) ^ 2))| ≤
        Real.pi * (b - a) * ((|ω| * (b - a) / 4) ^ (2 * n) / (2 * n).factorial)) ∧
    (∃ r : Rule ℝ, GaussChebyshevSecondKind.new mode n = some r ∧
      |(AnyRule.chebyshevSecond r).value a b (fun x => Real.cos (ω * x + φ)) - ∫ t in a..b, Real.cos (ω * t + φ) * Real.sqrt (1 - ((2 * t - a - b) / (b - a)) ^ 2)| ≤
        Real.pi / 4 * (b - a) * ((|ω| * (b - a) / 4) ^ (2 * n) / (2 * n).factorial)) := by
  obtain ⟨⟨r, h1, -, h2⟩, ⟨r', h1', -, h2'⟩⟩ := C66_chebyshev mode hn hlt hab.ne (smooth_osc ω φ (2 * n) (Set.uIoo a b))
  have hd : 0 < b - a := by linarith
  have e : (4 : ℝ) ^ (2 * n) = 2 ^ (2 * n) * 2 ^ (2 * n) := by rw [← mul_pow]; norm_num
  refine ⟨⟨r, h1, h2.trans (le_of_eq ?_)⟩, ⟨r', h1', h2'.trans (le_of_eq ?_)⟩⟩
  · obtain ⟨m, hm⟩ : ∃ m, 2 * n = m + 1 := ⟨2 * n - 1, by omega⟩
    rw [abs_of_pos hd, div_pow, div_pow, mul_pow, e, hm, Nat.add_sub_cancel]
    have : (0 : ℝ) < (m + 1).factorial := by positivity
    field_simp
    ring
  · rw [abs_of_pos hd, div_pow, div_pow, mul_pow, e]
    have : (0 : ℝ) < (2 * n).factorial := by positivity
    field_simp
    ring

/-! ### Instances -/

theorem rate_one : (1 / 2 : ℝ) = Real.sqrt (((1 : ℝ) ^ 2 + 0 ^ 2) / ((1 + 1) ^ 2 + 0 ^ 2)) := by
  rw [eq_comm, Real.sqrt_eq_iff_mul_self_eq (by norm_num) (by norm_num)]
  norm_num

/-- `e^(-x)` with ten Gauss-Laguerre nodes, `α = 0` -/
example {ext : Externals ℝ} (hext : ExactSolver ext) : ∃ (r : LaguerreRule ℝ) (c : ℝ), GaussLaguerre.new ext 10 ⟨0⟩ = some r ∧ |c - 1| ≤ 2e-12 ∧
    |(AnyRule.laguerre r).value 0 0 (fun x => Real.exp (-x)) - c * (1 / 2)| ≤ 8e-6 := by
  obtain ⟨r, c, h1, h2, h3⟩ := C108_laguerre hext (n := 10) (by norm_num) (α := ⟨0⟩) (by norm_num [FiniteAboveNegOne.get])
  refine ⟨r, c, h1, h2, ?_⟩
  have h := (h3 1 0 0 0 0 (1 / 2) (by norm_num) rate_one).2
  have e : ∫ x in Set.Ioi (0 : ℝ), Real.exp (-x) * ((x : ℝ) ^ (0 : ℝ) * Real.exp (-x)) = 1 / 2 := by
    have := integral_exp_mul_Ioi (a := -2) (by norm_num) 0
    have e2 : ∫ x in Set.Ioi (0 : ℝ), Real.exp (-x) * ((x : ℝ) ^ (0 : ℝ) * Real.exp (-x)) = ∫ x in Set.Ioi (0 : ℝ), Real.exp (-2 * x) := by
      congr 1; funext x; rw [Real.rpow_zero, one_mul, ← Real.exp_add]; congr 1; ring
    rw [e2, this]; norm_num
  have e3 : (FiniteAboveNegOne.get (⟨0⟩ : FiniteAboveNegOne ℝ)) = (0 : ℝ) := rfl
  simp only [one_mul, zero_mul, add_zero, Real.cos_zero, mul_one, e3, e] at h
  refine h.trans ?_
  have hc := abs_le.1 h2
  norm_num [Real.Gamma_one] at hc ⊢
  linarith

/-- `e^(-x²)` with twenty Gauss-Hermite nodes -/
example {ext : Externals ℝ} (hext : ExactSolver ext) : ∃ r : Rule ℝ, GaussHermite.new ext 20 = some r ∧
    |(AnyRule.hermite r).value 0 0 (fun x => Real.exp (-x ^ 2)) - Real.sqrt (Real.pi / 2)| ≤ 2e-5 := by
  obtain ⟨r, h1, h3⟩ := C108_hermite hext (n := 20) (by norm_num)
  refine ⟨r, h1, ?_⟩
  have h := (h3 1 0 0 0 0 (1 / 2) (by norm_num) rate_one).2
  have e : ∫ x : ℝ, Real.exp (-x ^ 2) * Real.exp (-x ^ 2) = Real.sqrt (Real.pi / 2) := by
    rw [← integral_gaussian 2]
    congr 1; funext x; rw [← Real.exp_add]; congr 1; ring
  simp only [one_mul, zero_mul, add_zero, Real.cos_zero, mul_one, e] at h
  refine h.trans ?_
  have : Real.sqrt (2 * Real.pi) ≤ 3 := Real.sqrt_le_iff.2 ⟨by norm_num, by linarith [Real.pi_le_four]⟩
  generalize Real.sqrt (2 * Real.pi) = v at *
  norm_num
  linarith

/-- `cos 2x` with ten Gauss-Hermite nodes -/
example {ext : Externals ℝ} (hext : ExactSolver ext) : ∃ r : Rule ℝ, GaussHermite.new ext 10 = some r ∧
    |(AnyRule.hermite r).value 0 0 (fun x => Real.cos (2 * x + 0)) - ∫ x, Real.cos (2 * x + 0) * Real.exp (-x ^ 2)| ≤ 1e-7 := by
  obtain ⟨r, h1, h2⟩ := C108_hermite_cos hext (n := 10) (by norm_num) 2 0 0 0
  refine ⟨r, h1, h2.trans ?_⟩
  have : Real.sqrt Real.pi ≤ 2 := Real.sqrt_le_iff.2 ⟨by norm_num, by linarith [Real.pi_le_four]⟩
  norm_num
  linarith

/-- `cos 10x` over `[0, 1]` with ten Gauss-Legendre nodes -/
example : ∃ r : Rule ℝ, GaussLegendre.new .checked 10 = some r ∧
    |(AnyRule.legendre r).value 0 1 (fun x => Real.cos (10 * x + 0)) - ∫ t in (0 : ℝ)..1, Real.cos (10 * t + 0)| ≤ 8e-10 := by
  obtain ⟨r, h1, h2⟩ := C108_legendre .checked (n := 10) (by norm_num) (by norm_num)
  refine ⟨r, h1, (h2 0 1 10 0 one_pos).trans ?_⟩
  norm_num [Nat.factorial]

/-- `cos 4x` over `[-1, 1]` with eight Gauss-Chebyshev nodes -/
example : ∃ r : Rule ℝ, GaussChebyshevFirstKind.new .checked 8 = some r ∧
    |(AnyRule.chebyshevFirst r).value (-1) 1 (fun x => Real.cos (4 * x + 0)) - ∫ t in (-1 : ℝ)..1, Real.cos (4 * t + 0) * (1 / Real.sqrt (1 - ((2 * t - -1 - 1) / (1 - -1)) ^ 2))| ≤ 3e-8 := by
  obtain ⟨⟨r, h1, h2⟩, -⟩ := C108_chebyshev .checked (n := 8) (by norm_num) (by norm_num) (a := -1) (b := 1) (by norm_num) 4 0
  refine ⟨r, h1, h2.trans ?_⟩
  have := Real.pi_le_four
  norm_num [Nat.factorial]
  linarith

end GaussQuad.Props
