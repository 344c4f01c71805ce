import Verif.Props.BoundedVariation
import Verif.Props.EndpointSingularity

/-!
# C91, second part: Gauss rules for integrands that are unbounded near the ends of the interval

The nodes stay away from the ends.  If all of them lie in `[c, d]`, only the variation of the integrand on `[c, d]` enters the error of C75, and what is missing is the
integral of the integrand over the two remaining pieces.
`/repo/src/*/mod.rs`: `integrate`.
-/

namespace GaussQuad.Props
open Spec FloatOps MeasureTheory Set

/-- `x` moved into `[c, d]` -/
noncomputable def clamp (c d x : ℝ) : ℝ := max c (min x d)

theorem clamp_mem {c d : ℝ} (h : c ≤ d) (x : ℝ) : clamp c d x ∈ Icc c d := ⟨le_max_left _ _, max_le h (min_le_right _ _)⟩

theorem clamp_of_mem {c d x : ℝ} (h : x ∈ Icc c d) : clamp c d x = x := by rw [clamp, min_eq_left h.2, max_eq_right h.1]

theorem clamp_low {c d x : ℝ} (h : x ≤ c) (hcd : c ≤ d) : clamp c d x = c := by rw [clamp, min_eq_left (h.trans hcd), max_eq_left h]

theorem clamp_high {c d x : ℝ} (h : d ≤ x) (hcd : c ≤ d) : clamp c d x = d := by rw [clamp, min_eq_right h, max_eq_right hcd]

theorem clamp_mono (c d : ℝ) : Monotone (clamp c d) := fun _ _ h => max_le_max le_rfl (min_le_min h le_rfl)

theorem clamp_variation {f : ℝ → ℝ} {c d : ℝ} (h : c ≤ d) (S : Set ℝ) : eVariationOn (fun x => f (clamp c d x)) S ≤ eVariationOn f (Icc c d) :=
  eVariationOn.comp_le_of_monotoneOn f (clamp c d) ((clamp_mono c d).monotoneOn _) fun x _ => clamp_mem h x

theorem clamp_value (R : AnyRule ℝ) {f : ℝ → ℝ} {a b c d : ℝ} (h : ∀ p ∈ points a b R, p ∈ Icc c d) : R.value a b (fun x => f (clamp c d x)) = R.value a b f := by
  rw [C15_value, C15_value]
  congr 1
  exact List.map_congr_left fun p hp => by rw [clamp_of_mem (h p hp)]

theorem clamp_integral {f w : ℝ → ℝ} {a b c d : ℝ} (hac : a ≤ c) (hcd : c ≤ d) (hdb : d ≤ b) (hw0 : ∀ x ∈ Ioo a b, 0 ≤ w x) (hw : IntervalIntegrable w volume a b)
    (hi : IntervalIntegrable (fun x => f x * w x) volume a b) :
    |(∫ x in a..b, f (clamp c d x) * w x) - ∫ x in a..b, f x * w x| ≤ (∫ x in a..c, |f x - f c| * w x) + ∫ x in d..b, |f x - f d| * w x := by
  have hab : a ≤ b := hac.trans (hcd.trans hdb)
  have sub : ∀ {g : ℝ → ℝ} u v, IntervalIntegrable g volume a b → a ≤ u → u ≤ v → v ≤ b → IntervalIntegrable g volume u v := fun u v hg h1 h2 h3 =>
    hg.mono_set (by rw [uIcc_of_le h2, uIcc_of_le hab]; exact Icc_subset_Icc h1 h3)
  have g1 : IntervalIntegrable (fun x => f (clamp c d x) * w x) volume a c := ((sub a c hw le_rfl hac (hcd.trans hdb)).const_mul (f c)).congr fun x hx => by
    rw [uIoc_of_le hac] at hx
    simp only [clamp_low hx.2 hcd]
  have g2 : IntervalIntegrable (fun x => f (clamp c d x) * w x) volume c d := (sub c d hi hac hcd hdb).congr fun x hx => by
    rw [uIoc_of_le hcd] at hx
    simp only [clamp_of_mem (Ioc_subset_Icc_self hx)]
  have g3 : IntervalIntegrable (fun x => f (clamp c d x) * w x) volume d b := ((sub d b hw (hac.trans hcd) hdb le_rfl).const_mul (f d)).congr fun x hx => by
    rw [uIoc_of_le hdb] at hx
    simp only [clamp_high hx.1.le hcd]
  have k1 := sub a c hi le_rfl hac (hcd.trans hdb)
  have k2 := sub c d hi hac hcd hdb
  have k3 := sub d b hi (hac.trans hcd) hdb le_rfl
  rw [← intervalIntegral.integral_add_adjacent_intervals (g1.trans g2) g3, ← intervalIntegral.integral_add_adjacent_intervals g1 g2,
    ← intervalIntegral.integral_add_adjacent_intervals (k1.trans k2) k3, ← intervalIntegral.integral_add_adjacent_intervals k1 k2]
  have e2 : (∫ x in c..d, f (clamp c d x) * w x) = ∫ x in c..d, f x * w x := by
    refine intervalIntegral.integral_congr fun x hx => ?_
    rw [uIcc_of_le hcd] at hx
    simp only [clamp_of_mem hx]
  have p1 : |(∫ x in a..c, f (clamp c d x) * w x) - ∫ x in a..c, f x * w x| ≤ ∫ x in a..c, |f x - f c| * w x := by
    rw [← intervalIntegral.integral_sub g1 k1]
    refine (intervalIntegral.abs_integral_le_integral_abs hac).trans (le_of_eq ?_)
    rw [intervalIntegral.integral_of_le hac, intervalIntegral.integral_of_le hac, integral_Ioc_eq_integral_Ioo, integral_Ioc_eq_integral_Ioo]
    refine setIntegral_congr_fun measurableSet_Ioo fun x hx => ?_
    beta_reduce
    rw [clamp_low hx.2.le hcd, ← sub_mul, abs_mul, abs_of_nonneg (hw0 x ⟨hx.1, hx.2.trans_le (hcd.trans hdb)⟩), abs_sub_comm]
  have p3 : |(∫ x in d..b, f (clamp c d x) * w x) - ∫ x in d..b, f x * w x| ≤ ∫ x in d..b, |f x - f d| * w x := by
    rw [← intervalIntegral.integral_sub g3 k3]
    refine (intervalIntegral.abs_integral_le_integral_abs hdb).trans (le_of_eq ?_)
    rw [intervalIntegral.integral_of_le hdb, intervalIntegral.integral_of_le hdb, integral_Ioc_eq_integral_Ioo, integral_Ioc_eq_integral_Ioo]
    refine setIntegral_congr_fun measurableSet_Ioo fun x hx => ?_
    beta_reduce
    rw [clamp_high hx.1.le hcd, ← sub_mul, abs_mul, abs_of_nonneg (hw0 x ⟨(hac.trans hcd).trans_lt hx.1, hx.2⟩), abs_sub_comm]
  rw [e2]
  rw [abs_le] at p1 p3 ⊢
  constructor <;> linarith [p1.1, p1.2, p3.1, p3.2]

/-- the weight of a finite-interval rule moved to `[a, b]` is integrable -/
theorem transported_weight {w : ℝ → ℝ} (hw : IntegrableOn w (Ioo (-1) 1)) {a b : ℝ} (hab : a < b) : IntervalIntegrable (fun t => w ((2 * t - a - b) / (b - a))) volume a b := by
  have h : IntervalIntegrable w volume (-1) 1 := by rwa [intervalIntegrable_iff_integrableOn_Ioo_of_le (by norm_num)]
  have hne : (2 / (b - a)) ≠ 0 := by have := sub_pos.2 hab; positivity
  have hba : b - a ≠ 0 := (sub_pos.2 hab).ne'
  have h1 := (h.comp_add_right (-(a + b) / (b - a))).comp_mul_left (c := 2 / (b - a))
  convert h1 using 1
  · ext t; congr 1; field_simp; ring
  · field_simp; ring
  · field_simp; ring

/-- C91 for both Gauss-Chebyshev rules -/
theorem C91_gauss_chebyshev (mode : Overflow) {n : ℕ} (hn : 0 < n) (hlt : n + 1 < 2 ^ 64) {a b c d : ℝ} (hab : a < b) (hac : a ≤ c) (hcd : c ≤ d) (hdb : d ≤ b) {f : ℝ → ℝ}
    (hf : BoundedVariationOn f (Icc c d)) :
    (∃ r : Rule ℝ, GaussChebyshevFirstKind.new mode n = some r ∧ ((∀ p ∈ points a b (.chebyshevFirst r), p ∈ Icc c d) →
      IntervalIntegrable (fun t => f t * (1 / Real.sqrt (1 - ((2 * t - a - b) / (b - a)) ^ 2))) volume a b →
      |(AnyRule.chebyshevFirst r).value a b f - ∫ t in a..b, f t * (1 / Real.sqrt (1 - ((2 * t - a - b) / (b - a)) ^ 2))| ≤
        Real.pi / (2 * n) * (b - a) * (eVariationOn f (Icc c d)).toReal +
        ((∫ t in a..c, |f t - f c| * (1 / Real.sqrt (1 - ((2 * t - a - b) / (b - a)) ^ 2))) + ∫ t in d..b, |f t - f d| * (1 / Real.sqrt (1 - ((2 * t - a - b) / (b - a)) ^ 2))))) ∧
    (∃ r : Rule ℝ, GaussChebyshevSecondKind.new mode n = some r ∧ ((∀ p ∈ points a b (.chebyshevSecond r), p ∈ Icc c d) →
      IntervalIntegrable (fun t => f t * Real.sqrt (1 - ((2 * t - a - b) / (b - a)) ^ 2)) volume a b →
      |(AnyRule.chebyshevSecond r).value a b f - ∫ t in a..b, f t * Real.sqrt (1 - ((2 * t - a - b) / (b - a)) ^ 2)| ≤
        Real.pi / (2 * (n + 1)) * (b - a) * (eVariationOn f (Icc c d)).toReal +
        ((∫ t in a..c, |f t - f c| * Real.sqrt (1 - ((2 * t - a - b) / (b - a)) ^ 2)) + ∫ t in d..b, |f t - f d| * Real.sqrt (1 - ((2 * t - a - b) / (b - a)) ^ 2)))) := by
  have hv := clamp_variation (f := f) hcd (uIcc a b)
  have hbv : BoundedVariationOn (fun x => f (clamp c d x)) (uIcc a b) := ne_top_of_le_ne_top hf hv
  have hv' : (eVariationOn (fun x => f (clamp c d x)) (uIcc a b)).toReal ≤ (eVariationOn f (Icc c d)).toReal := ENNReal.toReal_mono hf hv
  have hba := sub_pos.2 hab
  obtain ⟨⟨r, h1, h2⟩, ⟨r', h1', h2'⟩⟩ := C75_chebyshev mode hn hlt hab.ne hbv
  rw [abs_of_pos hba] at h2 h2'
  have m1 : ∀ V : ℝ, V ≤ (eVariationOn f (Icc c d)).toReal → Real.pi / (2 * n) * (b - a) * V ≤ Real.pi / (2 * n) * (b - a) * (eVariationOn f (Icc c d)).toReal :=
    fun V h => mul_le_mul_of_nonneg_left h (by have := Real.pi_pos; positivity)
  have m2 : ∀ V : ℝ, V ≤ (eVariationOn f (Icc c d)).toReal → Real.pi / (2 * (n + 1)) * (b - a) * V ≤ Real.pi / (2 * (n + 1)) * (b - a) * (eVariationOn f (Icc c d)).toReal :=
    fun V h => mul_le_mul_of_nonneg_left h (by have := Real.pi_pos; positivity)
  refine ⟨⟨r, h1, fun hp hi => ?_⟩, ⟨r', h1', fun hp hi => ?_⟩⟩
  · rw [clamp_value _ hp] at h2
    have hw : IntervalIntegrable (fun t => chebW1 ((2 * t - a - b) / (b - a))) volume a b := transported_weight (by simpa using integrableOn_cheb1 1) hab
    have h3 := clamp_integral hac hcd hdb (fun x _ => by rw [chebW1]; positivity) hw hi
    exact (abs_sub_le _ _ _).trans (add_le_add (h2.trans (m1 _ hv')) h3)
  · rw [clamp_value _ hp] at h2'
    have hw : IntervalIntegrable (fun t => chebW2 ((2 * t - a - b) / (b - a))) volume a b := transported_weight (by simpa using integrableOn_cheb2 1) hab
    have h3 := clamp_integral hac hcd hdb (fun x _ => by rw [chebW2]; positivity) hw hi
    exact (abs_sub_le _ _ _).trans (add_le_add (h2'.trans (m2 _ hv')) h3)

/-- C91 for the general branch of Gauss-Jacobi -/
theorem C91_gauss_jacobi {ext : Externals ℝ} (hext : ExactSolver ext) {n : ℕ} (hn : 0 < n) {α β : FiniteAboveNegOne ℝ} (hα : -1 < α.get) (hβ : -1 < β.get)
    (hs : α.get + β.get ≠ -1) :
    ∃ (r : JacobiRule ℝ) (κ : ℝ), GaussJacobi.newGeneral ext n α β = some r ∧ |κ - 1| ≤ 6e-12 ∧
      ∀ (f : ℝ → ℝ) (W a b c d : ℝ), a < b → a ≤ c → c ≤ d → d ≤ b → BoundedVariationOn f (Icc c d) → (∀ q ∈ r.asNodeWeightPairs, q.2 ≤ W) →
      (∀ p ∈ points a b (.jacobi r), p ∈ Icc c d) →
      IntervalIntegrable (fun t => f t * ((1 - (2 * t - a - b) / (b - a)) ^ α.get * (1 + (2 * t - a - b) / (b - a)) ^ β.get)) volume a b →
      |(AnyRule.jacobi r).value a b f - κ * ∫ t in a..b, f t * ((1 - (2 * t - a - b) / (b - a)) ^ α.get * (1 + (2 * t - a - b) / (b - a)) ^ β.get)| ≤
        (b - a) * W * (eVariationOn f (Icc c d)).toReal +
        κ * ((∫ t in a..c, |f t - f c| * ((1 - (2 * t - a - b) / (b - a)) ^ α.get * (1 + (2 * t - a - b) / (b - a)) ^ β.get)) +
          ∫ t in d..b, |f t - f d| * ((1 - (2 * t - a - b) / (b - a)) ^ α.get * (1 + (2 * t - a - b) / (b - a)) ^ β.get)) := by
  obtain ⟨r, κ, h1, h2, -, h3⟩ := C75_jacobi hext hn hα hβ hs
  refine ⟨r, κ, h1, h2, fun f W a b c d hab hac hcd hdb hf hW hp hi => ?_⟩
  have hκ : 0 < κ := by have := abs_le.1 h2; linarith [this.1]
  have hv := clamp_variation (f := f) hcd (uIcc a b)
  have hv' : (eVariationOn (fun x => f (clamp c d x)) (uIcc a b)).toReal ≤ (eVariationOn f (Icc c d)).toReal := ENNReal.toReal_mono hf hv
  have h4 := h3 (fun x => f (clamp c d x)) W a b hab.ne (ne_top_of_le_ne_top hf hv) hW
  have hba := sub_pos.2 hab
  rw [clamp_value _ hp, abs_of_pos hba] at h4
  have hW0 : 0 ≤ W := by
    obtain ⟨r', L, g1, g2, gw, -⟩ := jacobi_general hext hn hα hβ hs
    obtain rfl := Option.some.inj (h1.symm.trans g1)
    have hLpos := gauss_weights_pos (jacobiFactor_pos hα hβ hs) g2.exact' (posDef_jacobi hα hβ)
    have hne : L ≠ [] := by rw [← List.length_pos_iff, g2.length]; exact hn
    obtain ⟨q, hq⟩ := List.exists_mem_of_ne_nil L hne
    have hq2 : q.2 ∈ r.nodeWeightPairs.map (·.2) := by rw [gw]; exact List.mem_map.2 ⟨q, hq, rfl⟩
    obtain ⟨q', hq', he⟩ := List.mem_map.1 hq2
    exact (hLpos q hq).le.trans (he ▸ hW q' hq')
  have hw : IntervalIntegrable (fun t => jacW α.get β.get ((2 * t - a - b) / (b - a))) volume a b := transported_weight (by simpa using integrable_jacobi hα hβ 1) hab
  have h5 := clamp_integral hac hcd hdb (fun x hx => ?_) hw hi
  · refine (abs_sub_le _ _ _).trans (add_le_add (h4.trans (mul_le_mul_of_nonneg_left hv' (by positivity))) ?_)
    rw [← mul_sub, abs_mul, abs_of_pos hκ]
    exact mul_le_mul_of_nonneg_left h5 hκ.le
  · exact jacW_nonneg _ _ _ (by
      constructor
      · rw [lt_div_iff₀ hba]; linarith [hx.1]
      · rw [div_lt_iff₀ hba]; linarith [hx.2])

/-- C91 for Gauss-Legendre -/
theorem C91_gauss_legendre (mode : Overflow) {n : ℕ} (hn : 0 < n) (hlt : n + 1 < 2 ^ 64) :
    ∃ r : Rule ℝ, GaussLegendre.new mode n = some r ∧ ∀ (f : ℝ → ℝ) (K a b c d : ℝ), a < b → a ≤ c → c ≤ d → d ≤ b → BoundedVariationOn f (Icc c d) → (∀ x ∈ Icc c d, |f x| ≤ K) →
      (∀ p ∈ points a b (.legendre r), p ∈ Icc c d) → IntervalIntegrable f volume a b →
      |(AnyRule.legendre r).value a b f - ∫ t in a..b, f t| ≤
        (b - a) / 2 * ((eVariationOn f (Icc c d)).toReal * (4 * Real.pi / (2 * n - 1) + 2 / 10 ^ 16) + 5 / 10 ^ 15 * K) +
        ((∫ t in a..c, |f t - f c|) + ∫ t in d..b, |f t - f d|) := by
  obtain ⟨r, h1, h2⟩ := C75_legendre mode hn hlt
  refine ⟨r, h1, fun f K a b c d hab hac hcd hdb hf hK hp hi => ?_⟩
  have hv := clamp_variation (f := f) hcd (uIcc a b)
  have hv' : (eVariationOn (fun x => f (clamp c d x)) (uIcc a b)).toReal ≤ (eVariationOn f (Icc c d)).toReal := ENNReal.toReal_mono hf hv
  have h4 := h2 (fun x => f (clamp c d x)) K a b (ne_top_of_le_ne_top hf hv) (fun x _ => hK _ (clamp_mem hcd x))
  have hba := sub_pos.2 hab
  rw [clamp_value _ hp, abs_of_pos hba] at h4
  have h5 := clamp_integral (w := fun _ => 1) hac hcd hdb (fun x _ => zero_le_one) (by simp) (by simpa using hi)
  simp only [mul_one] at h5
  have hn1 : (1 : ℝ) ≤ n := by exact_mod_cast hn
  have hpos : 0 ≤ 4 * Real.pi / (2 * n - 1) + 2 / 10 ^ 16 := by
    have := Real.pi_pos
    have : 0 ≤ 4 * Real.pi / (2 * (n : ℝ) - 1) := div_nonneg (by positivity) (by linarith)
    positivity
  refine (abs_sub_le _ _ _).trans (add_le_add (h4.trans ?_) h5)
  gcongr

/-- the hypothesis on the evaluation points can always be met: finitely many points of `(a, b)` lie in some `[c, d]` inside -/
theorem enclose {a b : ℝ} (hab : a < b) (l : List ℝ) (h : ∀ x ∈ l, a < x ∧ x < b) : ∃ c d, a < c ∧ c ≤ d ∧ d < b ∧ ∀ x ∈ l, x ∈ Icc c d := by
  induction l with
  | nil => exact ⟨(a + b) / 2, (a + b) / 2, by linarith, le_rfl, by linarith, by simp⟩
  | cons x l ih =>
    obtain ⟨c, d, h1, h2, h3, h4⟩ := ih fun y hy => h y (List.mem_cons_of_mem _ hy)
    have hx := h x List.mem_cons_self
    refine ⟨min c x, max d x, lt_min h1 hx.1, (min_le_left _ _).trans (h2.trans (le_max_left _ _)), max_lt h3 hx.2, fun y hy => ?_⟩
    rcases List.mem_cons.1 hy with rfl | hy
    · exact ⟨min_le_right _ _, le_max_right _ _⟩
    · exact ⟨(min_le_left _ _).trans (h4 y hy).1, (h4 y hy).2.trans (le_max_left _ _)⟩

theorem log_variation {c : ℝ} (hc : 0 < c) (hc1 : c ≤ 1) : BoundedVariationOn Real.log (Icc c 1) ∧ (eVariationOn Real.log (Icc c 1)).toReal = -Real.log c := by
  have hm : MonotoneOn Real.log (Icc c 1) := fun x hx y _ hxy => Real.log_le_log (hc.trans_le hx.1) hxy
  have h := hm.eVariationOn_eq (left_mem_Icc.2 hc1) (right_mem_Icc.2 hc1)
  rw [inter_self, Real.log_one, zero_sub] at h
  refine ⟨by rw [BoundedVariationOn, h]; exact ENNReal.ofReal_ne_top, ?_⟩
  rw [h, ENNReal.toReal_ofReal (neg_nonneg.2 (Real.log_nonpos hc.le hc1))]

/-- the logarithm on `[0, 1]` with Gauss-Legendre of any degree: it is unbounded at 0, the exact integral is -1 -/
example (mode : Overflow) {n : ℕ} (hn : 0 < n) (hlt : n + 1 < 2 ^ 64) : ∃ (r : Rule ℝ) (c : ℝ), GaussLegendre.new mode n = some r ∧ 0 < c ∧ c ≤ 1 ∧ (∀ p ∈ points 0 1 (.legendre r), c ≤ p) ∧
    |(AnyRule.legendre r).value 0 1 Real.log - -1| ≤ 1 / 2 * (-Real.log c * (4 * Real.pi / (2 * n - 1) + 2 / 10 ^ 16) + 5 / 10 ^ 15 * -Real.log c) + ∫ t in (0 : ℝ)..c, |Real.log t - Real.log c| := by
  obtain ⟨r, h1, h2⟩ := C91_gauss_legendre mode hn hlt
  obtain ⟨r', h1', h3⟩ := C23_legendre mode hn hlt (a := 0) (b := 1) one_pos
  obtain rfl := Option.some.inj (h1.symm.trans h1')
  obtain ⟨c, d, hc, hcd, hd, hp⟩ := enclose one_pos _ h3
  have hc1 : c ≤ 1 := hcd.trans hd.le
  obtain ⟨hv, hv'⟩ := log_variation hc hc1
  refine ⟨r, c, h1, hc, hc1, fun p h => (hp p h).1, ?_⟩
  have h := h2 Real.log (-Real.log c) 0 1 c 1 one_pos hc.le hc1 le_rfl hv
    (fun x hx => by rw [abs_of_nonpos (Real.log_nonpos (hc.trans_le hx.1).le hx.2)]; exact neg_le_neg (Real.log_le_log hc hx.1))
    (fun p h => ⟨(hp p h).1, (h3 p h).2.le⟩) intervalIntegral.intervalIntegrable_log'
  rw [hv', integral_log] at h
  simpa using h

/-- the logarithm on `[0, 1]` with the Gauss-Chebyshev rule of the second kind -/
example (mode : Overflow) {n : ℕ} (hn : 0 < n) (hlt : n + 1 < 2 ^ 64) :
    ∃ (r : Rule ℝ) (c : ℝ), GaussChebyshevSecondKind.new mode n = some r ∧ 0 < c ∧ c ≤ 1 ∧ (∀ p ∈ points 0 1 (.chebyshevSecond r), c ≤ p) ∧
    |(AnyRule.chebyshevSecond r).value 0 1 Real.log - ∫ t in (0 : ℝ)..1, Real.log t * Real.sqrt (1 - ((2 * t - 0 - 1) / (1 - 0)) ^ 2)| ≤
      Real.pi / (2 * (n + 1)) * -Real.log c + ∫ t in (0 : ℝ)..c, |Real.log t - Real.log c| * Real.sqrt (1 - ((2 * t - 0 - 1) / (1 - 0)) ^ 2) := by
  obtain ⟨r, h1, h3⟩ := (C23_chebyshev mode hn hlt (a := 0) (b := 1) one_pos).2
  obtain ⟨c, d, hc, hcd, hd, hp⟩ := enclose one_pos _ h3
  have hc1 : c ≤ 1 := hcd.trans hd.le
  obtain ⟨hv, hv'⟩ := log_variation hc hc1
  obtain ⟨r', h1', h2⟩ := (C91_gauss_chebyshev mode hn hlt one_pos hc.le hc1 le_rfl hv).2
  obtain rfl := Option.some.inj (h1.symm.trans h1')
  have h := h2 (fun p h => ⟨(hp p h).1, (h3 p h).2.le⟩)
    (intervalIntegral.intervalIntegrable_log'.mul_continuousOn (by fun_prop))
  rw [hv'] at h
  refine ⟨r, c, h1, hc, hc1, fun p h => (hp p h).1, ?_⟩
  simpa using h

/-- the logarithm on `[0, 1]` with Gauss-Jacobi, parameters 1 and 0 -/
example : ∃ ext : Externals ℝ, ExactSolver ext ∧ ∃ (r : JacobiRule ℝ) (κ c : ℝ), GaussJacobi.newGeneral ext 7 ⟨1⟩ ⟨0⟩ = some r ∧ |κ - 1| ≤ 6e-12 ∧ 0 < c ∧ ∀ W, (∀ q ∈ r.asNodeWeightPairs, q.2 ≤ W) →
    |(AnyRule.jacobi r).value 0 1 Real.log - κ * ∫ t in (0 : ℝ)..1, Real.log t * ((1 - (2 * t - 0 - 1) / (1 - 0)) ^ (1 : ℝ) * (1 + (2 * t - 0 - 1) / (1 - 0)) ^ (0 : ℝ))| ≤
      W * -Real.log c + κ * ∫ t in (0 : ℝ)..c, |Real.log t - Real.log c| * ((1 - (2 * t - 0 - 1) / (1 - 0)) ^ (1 : ℝ) * (1 + (2 * t - 0 - 1) / (1 - 0)) ^ (0 : ℝ)) := by
  have g1 : -1 < (⟨1⟩ : FiniteAboveNegOne ℝ).get := by norm_num [FiniteAboveNegOne.get]
  have g2 : -1 < (⟨0⟩ : FiniteAboveNegOne ℝ).get := by norm_num [FiniteAboveNegOne.get]
  have g3 : (⟨1⟩ : FiniteAboveNegOne ℝ).get + (⟨0⟩ : FiniteAboveNegOne ℝ).get ≠ -1 := by norm_num [FiniteAboveNegOne.get]
  obtain ⟨r, κ, h1, hκ, h2⟩ := C91_gauss_jacobi exactSolver_exists (n := 7) (by norm_num) g1 g2 g3
  obtain ⟨r', h1', h3⟩ := (C23_golub_welsch exactSolver_exists (n := 7) (by norm_num) g1 g2 g3 (a := 0) (b := 1) one_pos).2
  obtain rfl := Option.some.inj (h1.symm.trans h1')
  obtain ⟨c, d, hc, hcd, hd, hp⟩ := enclose one_pos _ h3
  have hc1 : c ≤ 1 := hcd.trans hd.le
  obtain ⟨hv, hv'⟩ := log_variation hc hc1
  refine ⟨_, exactSolver_exists, r, κ, c, h1, hκ, hc, fun W hW => ?_⟩
  have h := h2 Real.log W 0 1 c 1 one_pos hc.le hc1 le_rfl hv hW (fun p h => ⟨(hp p h).1, (h3 p h).2.le⟩)
    (intervalIntegral.intervalIntegrable_log'.mul_continuousOn (by
      simp only [FiniteAboveNegOne.get, Real.rpow_one, Real.rpow_zero]; fun_prop))
  rw [hv'] at h
  simpa [FiniteAboveNegOne.get] using h

end GaussQuad.Props
