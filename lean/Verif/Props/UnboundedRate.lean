import Verif.Proofs.TailSplit
import Verif.Props.HermiteSpacing
import Verif.Props.LaguerreSpacing

/-!
# C117: rates of Gauss-Hermite and Gauss-Laguerre for unbounded integrands without derivatives

`/repo/src/hermite/mod.rs:66-106`, `/repo/src/laguerre/mod.rs:69-119`.
-/

namespace GaussQuad.Props
open Polynomial Spec FloatOps MeasureTheory

/-- C117 for Gauss-Hermite: the variation on `[-R, R]` and a polynomial bound outside -/
theorem C117_hermite {ext : Externals ℝ} (hext : ExactSolver ext) {n : ℕ} (hn : 0 < n) :
    ∃ r : Rule ℝ, GaussHermite.new ext n = some r ∧ ∀ (f : ℝ → ℝ) (R A : ℝ) (k : ℕ) (a b : ℝ), Measurable f → 0 < R → k < n → BoundedVariationOn f (Set.Icc (-R) R) →
      (∀ x, R ≤ x → |f x - f R| ≤ A * x ^ (2 * k)) → (∀ x, x ≤ -R → |f x - f (-R)| ≤ A * x ^ (2 * k)) →
      Integrable (fun x => f x * Real.exp (-x ^ 2)) ∧
      |(AnyRule.hermite r).value a b f - ∫ x, f x * Real.exp (-x ^ 2)| ≤
        2 * Real.pi / Real.sqrt (n + 1) * (eVariationOn f (Set.Icc (-R) R)).toReal + 2 * A * Real.Gamma (k + 1 / 2) := by
  obtain ⟨r, h1, h2⟩ := hermite_gauss hext hn
  refine ⟨r, h1, fun f R A k a b hf hR hk hV hA hA' => ?_⟩
  set φ : ℝ → ℝ := fun x => max (-R) (min R x) with hφ
  have hmono : Monotone φ := fun x y hxy => max_le_max le_rfl (min_le_min le_rfl hxy)
  have hmaps : Set.MapsTo φ Set.univ (Set.Icc (-R) R) := fun x _ => ⟨le_max_left _ _, max_le (by linarith) (min_le_left _ _)⟩
  have hvar := eVariationOn.comp_le_of_monotoneOn f φ (hmono.monotoneOn Set.univ) hmaps
  have hbv : BoundedVariationOn (f ∘ φ) Set.univ := ne_top_of_le_ne_top hV hvar
  have hA0 : 0 ≤ A := by
    have h3 := (abs_nonneg _).trans (hA R le_rfl)
    exact nonneg_of_mul_nonneg_left h3 (pow_pos hR _)
  obtain ⟨r', h1', hg, hE⟩ := C94_error hext hn hbv
  rw [h1, Option.some.injEq] at h1'
  subst h1'
  have hw := fun q hq => (gauss_weights_pos one_pos h2.exact' posDef_hermite q hq).le
  have hgm : Measurable (f ∘ φ) := hf.comp hmono.measurable
  have hdiff : ∀ x ∈ (Set.univ : Set ℝ), |f x - (f ∘ φ) x| ≤ A * (X ^ (2 * k) : ℝ[X]).eval x := fun x _ => by
    rw [eval_pow, eval_X, Function.comp_apply]
    rcases le_total R x with hx | hx
    · rw [show φ x = R by simp only [hφ]; rw [min_eq_left hx, max_eq_right (by linarith)]]
      exact hA x hx
    · rcases le_total x (-R) with hx' | hx'
      · rw [show φ x = -R by simp only [hφ]; rw [min_eq_right hx, max_eq_left hx']]
        exact hA' x hx'
      · rw [show φ x = x by simp only [hφ]; rw [min_eq_right hx, max_eq_right hx'], sub_self, abs_zero]
        exact mul_nonneg hA0 (by rw [pow_mul]; positivity)
  have h := tail_error (L := r.nodeWeightPairs) MeasurableSet.univ hermW_meas (fun x _ => (hermW_pos x).le) integrable_hermite one_pos h2.exact' (fun _ _ => Set.mem_univ _) hw
    (p := X ^ (2 * k)) (by rw [natDegree_X_pow, h2.length]; omega) hf.aestronglyMeasurable (integrableOn_univ.2 hg) hgm.aestronglyMeasurable hdiff
  rw [IntegrableOn, Measure.restrict_univ, one_mul, one_mul, hermite_even_moment, mul_one] at h
  refine ⟨h.1, ?_⟩
  rw [value_real]
  refine h.2.trans (add_le_add ?_ le_rfl)
  have h5 := hE 0 0
  rw [value_real] at h5
  refine h5.trans (mul_le_mul_of_nonneg_left (ENNReal.toReal_mono hV hvar) (by positivity))

/-- C117, Lipschitz integrands: the error of Gauss-Hermite is at most `24 Λ √k / √(n + 1)` whenever `n + 1 ≤ 16 ^ k`, that is of order `√(log n / n)` -/
theorem C117_hermite_lipschitz {ext : Externals ℝ} (hext : ExactSolver ext) {n : ℕ} (hn : 0 < n) :
    ∃ r : Rule ℝ, GaussHermite.new ext n = some r ∧ ∀ (f : ℝ → ℝ) (Λ : ℝ) (k : ℕ) (a b : ℝ), (∀ x y, |f x - f y| ≤ Λ * |x - y|) → 0 < k → k < n → n + 1 ≤ 16 ^ k →
      Integrable (fun x => f x * Real.exp (-x ^ 2)) ∧
      |(AnyRule.hermite r).value a b f - ∫ x, f x * Real.exp (-x ^ 2)| ≤ 24 * Λ * Real.sqrt k / Real.sqrt (n + 1) := by
  obtain ⟨r, h1, h⟩ := C117_hermite hext hn
  refine ⟨r, h1, fun f Λ k a b hf hk hkn h16 => ?_⟩
  have hΛ : 0 ≤ Λ := by
    have := (abs_nonneg _).trans (hf 1 0)
    simpa using this
  have hk' : (1 : ℝ) ≤ k := by exact_mod_cast hk
  set R : ℝ := Real.sqrt (2 * k) with hRd
  have hR2 : R ^ 2 = 2 * k := Real.sq_sqrt (by positivity)
  have hR : 0 < R := Real.sqrt_pos.2 (by positivity)
  have hcont : Continuous f := (LipschitzWith.of_dist_le_mul (K := Λ.toNNReal) fun x y => by
    rw [Real.dist_eq, Real.dist_eq, Real.coe_toNNReal _ hΛ]; exact hf x y).continuous
  obtain ⟨hV, hV'⟩ := lipschitz_variation hΛ (by linarith : -R ≤ R) fun x _ y _ => hf x y
  have hpow : R ^ (2 * k) = (2 * k : ℝ) ^ k := by rw [pow_mul, hR2]
  have key : ∀ x : ℝ, R ≤ |x| → Λ * |x| ≤ Λ * R / R ^ (2 * k) * x ^ (2 * k) := fun x hx => by
    obtain ⟨j, rfl⟩ : ∃ j, k = j + 1 := ⟨k - 1, by omega⟩
    have e1 : x ^ (2 * (j + 1)) = |x| * |x| ^ (2 * j + 1) := by
      rw [← pow_succ', ← Even.pow_abs (by exact even_two_mul _)]; congr 1
    have e2 : R ^ (2 * (j + 1)) = R * R ^ (2 * j + 1) := by rw [← pow_succ']; congr 1
    rw [e1, e2, mul_div_assoc, mul_assoc]
    refine mul_le_mul_of_nonneg_left ?_ hΛ
    have h3 : 1 ≤ |x| ^ (2 * j + 1) / R ^ (2 * j + 1) := (one_le_div (by positivity)).2 (pow_le_pow_left₀ hR.le hx _)
    have h4 : R / (R * R ^ (2 * j + 1)) * (|x| * |x| ^ (2 * j + 1)) = |x| * (|x| ^ (2 * j + 1) / R ^ (2 * j + 1)) := by field_simp
    rw [h4]
    exact le_mul_of_one_le_right (abs_nonneg x) h3
  obtain ⟨hi, he⟩ := h f R (Λ * R / R ^ (2 * k)) k a b hcont.measurable hR hkn hV (fun x hx => (hf x R).trans (le_trans (mul_le_mul_of_nonneg_left (by
      rw [abs_of_nonneg (by linarith), abs_of_nonneg (by linarith)]; linarith) hΛ) (key x (hx.trans (le_abs_self x))))) (fun x hx =>
      (hf x (-R)).trans (le_trans (mul_le_mul_of_nonneg_left (by
      rw [abs_of_nonpos (by linarith), abs_of_nonpos (by linarith)]; linarith) hΛ) (key x (by rw [abs_of_nonpos (by linarith)]; linarith))))
  refine ⟨hi, he.trans ?_⟩
  set s : ℝ := Real.sqrt (n + 1) with hs
  have hs0 : 0 < s := Real.sqrt_pos.2 (by positivity)
  have h4s : s ≤ 4 ^ k := by
    refine Real.sqrt_le_iff.2 ⟨by positivity, ?_⟩
    rw [← pow_mul, mul_comm, pow_mul]
    norm_num
    exact_mod_cast h16
  have hG : 2 * (Λ * R / R ^ (2 * k)) * Real.Gamma (k + 1 / 2) ≤ 4 * (Λ * R) / s := by
    have hg := gamma_half_le k hk
    have hkk : (0 : ℝ) < (k : ℝ) ^ k := by positivity
    rw [hpow, mul_pow]
    have e3 : 2 * (Λ * R / (2 ^ k * (k : ℝ) ^ k)) * Real.Gamma (k + 1 / 2) = 2 * (Λ * R) * (Real.Gamma (k + 1 / 2) * 2 ^ k) / (4 ^ k * (k : ℝ) ^ k) := by
      rw [show (4 : ℝ) ^ k = 2 ^ k * 2 ^ k by rw [← mul_pow]; norm_num]
      field_simp
    rw [e3]
    have e4 : 2 * (Λ * R) * (Real.Gamma (k + 1 / 2) * 2 ^ k) / (4 ^ k * (k : ℝ) ^ k) ≤ 2 * (Λ * R) * (2 * (k : ℝ) ^ k) / (4 ^ k * (k : ℝ) ^ k) := by
      gcongr
    refine e4.trans ?_
    rw [show 2 * (Λ * R) * (2 * (k : ℝ) ^ k) / (4 ^ k * (k : ℝ) ^ k) = 4 * (Λ * R) / 4 ^ k by field_simp; ring]
    gcongr
  have hV2 : 2 * Real.pi / s * (eVariationOn f (Set.Icc (-R) R)).toReal ≤ 4 * Real.pi * (Λ * R) / s := by
    refine (mul_le_mul_of_nonneg_left hV' (by positivity)).trans (le_of_eq ?_)
    ring
  refine (add_le_add hV2 hG).trans ?_
  rw [← add_div]
  refine div_le_div_of_nonneg_right ?_ hs0.le
  have hR3 : R ≤ 1.4143 * Real.sqrt k := by
    rw [hRd, Real.sqrt_mul (by norm_num)]
    refine mul_le_mul_of_nonneg_right (Real.sqrt_le_iff.2 ⟨by norm_num, by norm_num⟩) (Real.sqrt_nonneg _)
  have hp := Real.pi_lt_d2
  have h7 : Λ * R ≤ Λ * (1.4143 * Real.sqrt k) := mul_le_mul_of_nonneg_left hR3 hΛ
  have h8 : 0 ≤ Λ * R := mul_nonneg hΛ hR.le
  have h9 : 0 ≤ Λ * Real.sqrt k := by positivity
  nlinarith

/-- C117 for Gauss-Laguerre, up to the gamma factor `c` of the crate's weights -/
theorem C117_laguerre {ext : Externals ℝ} (hext : ExactSolver ext) {α : FiniteAboveNegOne ℝ} (hα : -1 < α.get) :
    ∃ K c : ℝ, 0 ≤ K ∧ |c - 1| ≤ 2e-12 ∧ ∀ n : ℕ, 0 < n → ∃ r : LaguerreRule ℝ, GaussLaguerre.new ext n α = some r ∧
      ∀ (f : ℝ → ℝ) (R A : ℝ) (k : ℕ) (a b : ℝ), Measurable f → 0 < R → k < 2 * n → BoundedVariationOn f (Set.Icc 0 R) → (∀ x, R ≤ x → |f x - f R| ≤ A * x ^ k) →
      IntegrableOn (fun x => f x * (x ^ α.get * Real.exp (-x))) (Set.Ioi 0) ∧
      |(AnyRule.laguerre r).value a b f - c * ∫ x in Set.Ioi 0, f x * (x ^ α.get * Real.exp (-x))| ≤
        K / (n : ℝ) ^ min (1 / 2) (α.get + 1) * (eVariationOn f (Set.Icc 0 R)).toReal + 2 * c * A * Real.Gamma (k + α.get + 1) := by
  have hc := laguerre_factor_pos hα
  obtain ⟨K, hK, h⟩ := laguerre_weight_rate hα hc
  refine ⟨K, gamma (α.get + 1) / Real.Gamma (α.get + 1), hK, C49_gamma_accurate fun m hm => ?_, fun n hn => ?_⟩
  · have : (0 : ℝ) ≤ m := Nat.cast_nonneg m
    linarith
  obtain ⟨r, hr, -, hg⟩ := laguerre_gauss hext hn α hα
  refine ⟨r, hr, fun f R A k a b hf hR hk hV hA => ?_⟩
  set φ : ℝ → ℝ := fun x => min R x with hφ
  have hmono : Monotone φ := fun x y hxy => min_le_min le_rfl hxy
  have hmaps : Set.MapsTo φ (Set.Ioi 0) (Set.Icc 0 R) := fun x hx => ⟨le_min hR.le (le_of_lt hx), min_le_left _ _⟩
  have hvar := eVariationOn.comp_le_of_monotoneOn f φ (hmono.monotoneOn (Set.Ioi 0)) hmaps
  have hbv : BoundedVariationOn (f ∘ φ) (Set.Ioi 0) := ne_top_of_le_ne_top hV hvar
  have hA0 : 0 ≤ A := by
    have h3 := (abs_nonneg _).trans (hA R le_rfl)
    exact nonneg_of_mul_nonneg_left h3 (pow_pos hR _)
  have hnode := gauss_nodes_gt hc hg.exact' (posDef_laguerre hα) (fun x hx => (show (0 : ℝ) < x from hx).le)
  have hb := gauss_bv measurableSet_Ioi (lagW_meas α.get) (fun x hx => (lagW_pos α.get hx).le) (integrable_laguerre hα) hc (posDef_laguerre hα) hg.exact'
    hnode (div_nonneg hK (Real.rpow_nonneg (Nat.cast_nonneg n) _)) (h n r.nodeWeightPairs hn hg) ⟨1, Set.mem_Ioi.2 one_pos⟩ hbv
  have hw := fun q hq => (gauss_weights_pos hc hg.exact' (posDef_laguerre hα) q hq).le
  have hgm : Measurable (f ∘ φ) := hf.comp hmono.measurable
  have hdiff : ∀ x ∈ Set.Ioi (0 : ℝ), |f x - (f ∘ φ) x| ≤ A * (X ^ k : ℝ[X]).eval x := fun x hx0 => by
    rw [eval_pow, eval_X, Function.comp_apply]
    rcases le_total R x with hx | hx
    · rw [show φ x = R from min_eq_left hx]
      exact hA x hx
    · rw [show φ x = x from min_eq_right hx, sub_self, abs_zero]
      exact mul_nonneg hA0 (pow_nonneg (le_of_lt hx0) _)
  have ht := tail_error (L := r.nodeWeightPairs) measurableSet_Ioi (lagW_meas α.get) (fun x hx => (lagW_pos α.get hx).le) (integrable_laguerre hα) hc hg.exact' hnode hw
    (p := X ^ k) (by rw [natDegree_X_pow, hg.length]; omega) hf.aestronglyMeasurable hb.1 hgm.aestronglyMeasurable hdiff
  rw [laguerre_power_moment hα] at ht
  refine ⟨ht.1, ?_⟩
  rw [value_real]
  refine ht.2.trans (add_le_add (hb.2.trans ?_) le_rfl)
  rw [mul_comm]
  exact mul_le_mul_of_nonneg_left (ENNReal.toReal_mono hV hvar) (div_nonneg hK (Real.rpow_nonneg (Nat.cast_nonneg n) _))

/-! ### Instances: absolute values -/

theorem abs_lipschitz (u x y : ℝ) : |(|x - u|) - (|y - u|)| ≤ 1 * |x - y| := by
  rw [one_mul]
  have := abs_abs_sub_abs_le_abs_sub (x - u) (y - u)
  rwa [show x - u - (y - u) = x - y by ring] at this

/-- `C117_hermite_lipschitz`: `|x - 1|` with a million points -/
example : ∃ (ext : Externals ℝ) (r : Rule ℝ), ExactSolver ext ∧ GaussHermite.new ext 1000000 = some r ∧
    |(AnyRule.hermite r).value 0 0 (fun x => |x - 1|) - ∫ x, |x - 1| * Real.exp (-x ^ 2)| ≤ 0.054 := by
  obtain ⟨r, hr, h⟩ := C117_hermite_lipschitz exactSolver_exists (n := 1000000) (by norm_num)
  refine ⟨_, r, exactSolver_exists, hr, (h (fun x => |x - 1|) 1 5 0 0 (abs_lipschitz 1) (by norm_num) (by norm_num) (by norm_num)).2.trans ?_⟩
  have h1 : Real.sqrt ((5 : ℕ) : ℝ) ≤ 2.2361 := Real.sqrt_le_iff.2 ⟨by norm_num, by norm_num⟩
  have h2 : (1000 : ℝ) ≤ Real.sqrt ((1000000 : ℕ) + 1) := Real.le_sqrt_of_sq_le (by norm_num)
  rw [div_le_iff₀ (by linarith)]
  norm_num at h1 h2 ⊢
  linarith

/-- `C117_hermite`: `|x|` with ten thousand points, split at 4 -/
example : ∃ (ext : Externals ℝ) (r : Rule ℝ), ExactSolver ext ∧ GaussHermite.new ext 10000 = some r ∧
    |(AnyRule.hermite r).value 0 0 (fun x => |x|) - ∫ x, |x| * Real.exp (-x ^ 2)| ≤ 0.51 := by
  obtain ⟨r, hr, h⟩ := C117_hermite exactSolver_exists (n := 10000) (by norm_num)
  have hl : ∀ x y : ℝ, |(|x|) - (|y|)| ≤ 1 * |x - y| := fun x y => by simpa using abs_lipschitz 0 x y
  obtain ⟨hV, hV'⟩ := lipschitz_variation (f := fun x => |x|) zero_le_one (by norm_num : (-4 : ℝ) ≤ 4) fun x _ y _ => hl x y
  have key : ∀ x : ℝ, 4 ≤ x → x - 4 ≤ 4 / 4 ^ 16 * x ^ (2 * 8) := fun x hx => by
    have h1 : (4 : ℝ) ^ 15 ≤ x ^ 15 := pow_le_pow_left₀ (by norm_num) hx _
    have h2 : x * 4 ^ 15 ≤ x * x ^ 15 := mul_le_mul_of_nonneg_left h1 (by linarith)
    rw [← pow_succ'] at h2
    norm_num at h2 ⊢
    linarith
  refine ⟨_, r, exactSolver_exists, hr, (h (fun x => |x|) 4 (4 / 4 ^ 16) 8 0 0 (by fun_prop) (by norm_num) (by norm_num) hV (fun x hx => ?_) (fun x hx => ?_)).2.trans ?_⟩
  · rw [abs_of_nonneg (by linarith : (0 : ℝ) ≤ x), abs_of_pos (by norm_num : (0 : ℝ) < 4), abs_of_nonneg (by linarith)]
    exact key x hx
  · have := key (-x) (by linarith)
    rw [Even.neg_pow (by decide)] at this
    rw [abs_of_nonpos (by linarith : x ≤ 0), abs_neg, abs_of_pos (by norm_num : (0 : ℝ) < 4), abs_of_nonneg (by linarith)]
    exact this
  · have hg := gamma_half_le 8 (by norm_num)
    have h2 : (100 : ℝ) ≤ Real.sqrt ((10000 : ℕ) + 1) := Real.le_sqrt_of_sq_le (by norm_num)
    have hp := Real.pi_lt_d2
    have hp0 := Real.pi_pos
    have h3 : 2 * Real.pi / Real.sqrt ((10000 : ℕ) + 1) ≤ 0.063 := by
      rw [div_le_iff₀ (by linarith)]; norm_num at h2 hp ⊢; linarith
    have h4 : 2 * Real.pi / Real.sqrt ((10000 : ℕ) + 1) * (eVariationOn (fun x : ℝ => |x|) (Set.Icc (-4) 4)).toReal ≤ 0.063 * 8 :=
      mul_le_mul h3 (hV'.trans (by norm_num)) ENNReal.toReal_nonneg (by norm_num)
    norm_num at hg h4 ⊢
    linarith

/-- `C117_laguerre`: `|x - 1|` with `α = 5`, split at 3 -/
example {ext : Externals ℝ} (hext : ExactSolver ext) : ∃ K c : ℝ, |c - 1| ≤ 2e-12 ∧ ∀ n : ℕ, 3 ≤ n → ∃ r : LaguerreRule ℝ, GaussLaguerre.new ext n ⟨5⟩ = some r ∧
    |(AnyRule.laguerre r).value 0 0 (fun x => |x - 1|) - c * ∫ x in Set.Ioi 0, |x - 1| * (x ^ (5 : ℝ) * Real.exp (-x))| ≤ K / Real.sqrt n * 3 + 2 * c * (1 / 27) * Real.Gamma 10 := by
  obtain ⟨K, c, hK, hc, h⟩ := C117_laguerre hext (α := ⟨5⟩) (by norm_num [FiniteAboveNegOne.get])
  refine ⟨K, c, hc, fun n hn => ?_⟩
  obtain ⟨r, hr, hf⟩ := h n (by omega)
  obtain ⟨hV, hV'⟩ := lipschitz_variation (f := fun x => |x - 1|) zero_le_one (by norm_num : (0 : ℝ) ≤ 3) fun x _ y _ => abs_lipschitz 1 x y
  have h1 := (hf (fun x => |x - 1|) 3 (1 / 27) 4 0 0 (by fun_prop) (by norm_num) (by omega) hV fun x hx => by
    have h2 : (3 : ℝ) ^ 3 ≤ x ^ 3 := pow_le_pow_left₀ (by norm_num) hx _
    have h3 : x * 3 ^ 3 ≤ x * x ^ 3 := mul_le_mul_of_nonneg_left h2 (by linarith)
    rw [← pow_succ'] at h3
    rw [abs_of_nonneg (by linarith : (0 : ℝ) ≤ x - 1), abs_of_pos (by norm_num : (0 : ℝ) < 3 - 1), abs_of_nonneg (by linarith)]
    norm_num at h3
    linarith).2
  rw [show min (1 / 2) (FiniteAboveNegOne.get (⟨5⟩ : FiniteAboveNegOne ℝ) + 1) = 1 / 2 by norm_num [FiniteAboveNegOne.get], ← Real.sqrt_eq_rpow,
    show ((4 : ℕ) : ℝ) + FiniteAboveNegOne.get (⟨5⟩ : FiniteAboveNegOne ℝ) + 1 = 10 by norm_num [FiniteAboveNegOne.get]] at h1
  refine ⟨r, hr, h1.trans (add_le_add (mul_le_mul_of_nonneg_left (hV'.trans (by norm_num)) (div_nonneg hK (Real.sqrt_nonneg _))) le_rfl)⟩

end GaussQuad.Props
