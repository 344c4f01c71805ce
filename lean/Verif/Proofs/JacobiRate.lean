import Verif.Proofs.JacobiSpacing
import Mathlib.Analysis.MeanInequalitiesPow
import Mathlib.Analysis.SpecialFunctions.Trigonometric.Bounds

/-!
# Distance of the Gauss-Jacobi nodes and size of the weights for every pair of parameters
-/

namespace GaussQuad
open Polynomial Spec MeasureTheory

variable {α β : ℝ} {L : List (ℝ × ℝ)} {n : ℕ} {c : ℝ}

theorem jacU_zero_iff (α β : ℝ) (n : ℕ) {θ : ℝ} (h0 : 0 < θ) (h1 : θ < Real.pi) : jacU α β n θ = 0 ↔ (monicSeq (jacA α β) (jacB α β) n).eval (Real.cos θ) = 0 := by
  have : jacG α β θ ≠ 0 := (mul_pos (Real.rpow_pos_of_pos (half_sin_pos h0 h1) _) (Real.rpow_pos_of_pos (half_cos_pos h0 h1) _)).ne'
  rw [jacU, mul_eq_zero]
  exact or_iff_right this

theorem jacobi_zero_iff (hα : -1 < α) (hβ : -1 < β) (hs : α + β ≠ -1) (hc : 0 < c) (hn : 0 < n) (h : IsGauss L n (Set.Ioo (-1) 1) (jacW α β) c) {θ : ℝ} (h0 : 0 < θ) (h1 : θ < Real.pi) :
    jacU α β n θ = 0 ↔ Real.cos θ ∈ L.map Prod.fst := by
  rw [jacU_zero_iff α β n h0 h1]
  exact isGauss_zero_iff (integrable_jacobi hα hβ) (jacobi_orthogonal hα hβ hs) hc (posDef_jacobi hα hβ) hn h _

theorem half_sin_sq (θ : ℝ) : 4 * Real.sin (θ / 2) ^ 2 = 2 * (1 - Real.cos θ) := by
  have := Real.cos_two_mul (θ / 2)
  rw [mul_div_cancel₀ _ (two_ne_zero)] at this
  linarith [Real.sin_sq_add_cos_sq (θ / 2)]

theorem half_cos_sq (θ : ℝ) : 4 * Real.cos (θ / 2) ^ 2 = 2 * (1 + Real.cos θ) := by
  have := Real.cos_two_mul (θ / 2)
  rw [mul_div_cancel₀ _ (two_ne_zero)] at this
  linarith

theorem jacQ_eq (α β : ℝ) (n : ℕ) (θ : ℝ) :
    jacQ α β n θ = (n + (α + β + 1) / 2) ^ 2 + (1 / 4 - α ^ 2) / (2 * (1 - Real.cos θ)) + (1 / 4 - β ^ 2) / (2 * (1 + Real.cos θ)) := by
  rw [jacQ, half_sin_sq, half_cos_sq]

/-- `c / d` is monotone in the sense needed for both ends -/
theorem div_between {a d e : ℝ} (hd : 0 < d) (hde : d ≤ e) : a / e ≤ max 0 a / d ∧ -(max 0 (-a) / d) ≤ a / e := by
  have he := hd.trans_le hde
  refine ⟨(div_le_div_of_nonneg_right (le_max_right 0 a) he.le).trans (div_le_div_of_nonneg_left (le_max_left _ _) hd hde), ?_⟩
  have := (div_le_div_of_nonneg_right (le_max_right 0 (-a)) he.le).trans (div_le_div_of_nonneg_left (le_max_left 0 (-a)) hd hde)
  rw [neg_div] at this
  linarith

theorem jacQ_le {θ u v : ℝ} (h0 : 0 < u) (h1 : u ≤ θ) (h2 : θ ≤ v) (h3 : v < Real.pi) :
    jacQ α β n θ ≤ (n + (α + β + 1) / 2) ^ 2 + max 0 (1 / 4 - α ^ 2) / (2 * (1 - Real.cos u)) + max 0 (1 / 4 - β ^ 2) / (2 * (1 + Real.cos v)) ∧
    (n + (α + β + 1) / 2) ^ 2 - max 0 (α ^ 2 - 1 / 4) / (2 * (1 - Real.cos u)) - max 0 (β ^ 2 - 1 / 4) / (2 * (1 + Real.cos v)) ≤ jacQ α β n θ := by
  have c1 : Real.cos u < 1 := by
    have := Real.cos_lt_cos_of_nonneg_of_le_pi le_rfl (by linarith : u ≤ Real.pi) h0
    rwa [Real.cos_zero] at this
  have c2 : -1 < Real.cos v := by
    have := Real.cos_lt_cos_of_nonneg_of_le_pi (by linarith : 0 ≤ v) le_rfl h3
    rwa [Real.cos_pi] at this
  have c3 : Real.cos θ ≤ Real.cos u := Real.cos_le_cos_of_nonneg_of_le_pi h0.le (by linarith) h1
  have c4 : Real.cos v ≤ Real.cos θ := Real.cos_le_cos_of_nonneg_of_le_pi (by linarith) h3.le h2
  obtain ⟨a1, a2⟩ := div_between (a := 1 / 4 - α ^ 2) (d := 2 * (1 - Real.cos u)) (e := 2 * (1 - Real.cos θ)) (by linarith) (by linarith)
  obtain ⟨b1, b2⟩ := div_between (a := 1 / 4 - β ^ 2) (d := 2 * (1 + Real.cos v)) (e := 2 * (1 + Real.cos θ)) (by linarith) (by linarith)
  rw [neg_sub] at a2 b2
  rw [jacQ_eq]
  constructor <;> linarith

/-- in the angle, every interval of length `π / ω` on which `q ≥ ω²` contains a node -/
theorem jacobi_node_in (hα : -1 < α) (hβ : -1 < β) (hs : α + β ≠ -1) (hc : 0 < c) (hn : 0 < n) (h : IsGauss L n (Set.Ioo (-1) 1) (jacW α β) c) {u v ω : ℝ} (hu : 0 < u) (hω : 0 < ω)
    (hv : v = u + Real.pi / ω) (hvπ : v < Real.pi)
    (hω2 : ω ^ 2 ≤ (n + (α + β + 1) / 2) ^ 2 - max 0 (α ^ 2 - 1 / 4) / (2 * (1 - Real.cos u)) - max 0 (β ^ 2 - 1 / 4) / (2 * (1 + Real.cos v))) :
    (∃ t, u < t ∧ t ≤ v ∧ Real.cos t ∈ L.map Prod.fst) ∧ ∃ t, u ≤ t ∧ t < v ∧ Real.cos t ∈ L.map Prod.fst := by
  have hd : ∀ t ∈ Set.Icc u v, HasDerivAt (jacU α β n) (jacU' α β n t) t := fun t ht => jacU_deriv (hu.trans_le ht.1) (ht.2.trans_lt hvπ) α β n
  have hd' : ∀ t ∈ Set.Icc u v, HasDerivAt (jacU' α β n) (-(jacQ α β n t * jacU α β n t)) t := fun t ht => jacU'_deriv (hu.trans_le ht.1) (ht.2.trans_lt hvπ) hα hβ hs n
  have hq : ∀ t ∈ Set.Ioo u v, ω ^ 2 ≤ jacQ α β n t := fun t ht => hω2.trans (jacQ_le hu ht.1.le ht.2.le hvπ).2
  constructor
  · obtain ⟨t, ht, hz⟩ := sturm_zero hω hv hd hd' hq
    exact ⟨t, ht.1, ht.2, (jacobi_zero_iff hα hβ hs hc hn h (hu.trans ht.1) (ht.2.trans_lt hvπ)).1 hz⟩
  · obtain ⟨t, ht, hz⟩ := sturm_zero_left hω hv hd hd' hq
    exact ⟨t, ht.1, ht.2, (jacobi_zero_iff hα hβ hs hc hn h (hu.trans_le ht.1) (ht.2.trans hvπ)).1 hz⟩

/-- the angles of different nodes `x < y` are at least `π / √((n + (α+β+1)/2)² + max(0, 1/4 - α²) / (2(1 - y)) + max(0, 1/4 - β²) / (2(1 + x)))` apart -/
theorem jacobi_gap (hα : -1 < α) (hβ : -1 < β) (hs : α + β ≠ -1) (hc : 0 < c) (hn : 0 < n) (h : IsGauss L n (Set.Ioo (-1) 1) (jacW α β) c) {x y : ℝ} (hx : x ∈ L.map Prod.fst)
    (hy : y ∈ L.map Prod.fst) (hx1 : -1 < x) (hy1 : y < 1) (hxy : x < y) :
    Real.pi / Real.sqrt ((n + (α + β + 1) / 2) ^ 2 + max 0 (1 / 4 - α ^ 2) / (2 * (1 - y)) + max 0 (1 / 4 - β ^ 2) / (2 * (1 + x))) ≤ Real.arccos x - Real.arccos y := by
  obtain ⟨z, hz, h1, h2, h3⟩ := next_node hy hxy
  have hpi := Real.pi_pos
  have hn1 : (1 : ℝ) ≤ n := by exact_mod_cast hn
  have hcx : Real.cos (Real.arccos x) = x := Real.cos_arccos hx1.le (by linarith)
  have hcz : Real.cos (Real.arccos z) = z := Real.cos_arccos (by linarith) (by linarith)
  have hzx : Real.arccos z < Real.arccos x := Real.arccos_lt_arccos hx1.le h1 (by linarith)
  have hyz : Real.arccos y ≤ Real.arccos z := Real.arccos_le_arccos h2
  have hz0 : 0 < Real.arccos z := Real.arccos_pos.2 (by linarith)
  have hxπ : Real.arccos x < Real.pi := by
    have := Real.arccos_lt_arccos le_rfl hx1 (by linarith)
    rwa [Real.arccos_neg_one] at this
  have e1 : 0 ≤ max 0 (1 / 4 - α ^ 2) / (2 * (1 - y)) := div_nonneg (le_max_left _ _) (by linarith)
  have e2 : 0 ≤ max 0 (1 / 4 - β ^ 2) / (2 * (1 + x)) := div_nonneg (le_max_left _ _) (by linarith)
  have hQ : 0 < (n + (α + β + 1) / 2) ^ 2 + max 0 (1 / 4 - α ^ 2) / (2 * (1 - y)) + max 0 (1 / 4 - β ^ 2) / (2 * (1 + x)) := by
    have : 0 < (n + (α + β + 1) / 2) ^ 2 := pow_pos (by linarith) 2
    linarith
  have e3 : max 0 (1 / 4 - α ^ 2) / (2 * (1 - z)) ≤ max 0 (1 / 4 - α ^ 2) / (2 * (1 - y)) := div_le_div_of_nonneg_left (le_max_left _ _) (by linarith) (by linarith)
  set Q := (n + (α + β + 1) / 2) ^ 2 + max 0 (1 / 4 - α ^ 2) / (2 * (1 - y)) + max 0 (1 / 4 - β ^ 2) / (2 * (1 + x)) with hQdef
  by_contra hlt
  push Not at hlt
  have hsq : 0 < Real.sqrt Q := Real.sqrt_pos.2 hQ
  have hlt' : Real.arccos x - Real.arccos z < Real.pi / Real.sqrt Q := by linarith
  have hω : Real.sqrt Q < Real.pi / (Real.arccos x - Real.arccos z) := by
    rw [lt_div_iff₀ (by linarith)] at hlt' ⊢
    linarith
  obtain ⟨ω, w1, w2⟩ := exists_between hω
  have hω0 : 0 < ω := hsq.trans w1
  have := sturm_gap (u := jacU α β n) (u' := jacU' α β n) (q := jacQ α β n) hω0 hzx (fun t ht => jacU_deriv (hz0.trans_le ht.1) (ht.2.trans_lt hxπ) α β n)
    (fun t ht => jacU'_deriv (hz0.trans_le ht.1) (ht.2.trans_lt hxπ) hα hβ hs n)
    (fun t ht => by
      have a1 : Real.sqrt Q ^ 2 = Q := Real.sq_sqrt hQ.le
      have a2 : Real.sqrt Q ^ 2 < ω ^ 2 := by gcongr
      have a3 := (jacQ_le (α := α) (β := β) (n := n) hz0 ht.1.le ht.2.le hxπ).1
      rw [hcx, hcz] at a3
      linarith)
    ((jacobi_zero_iff hα hβ hs hc hn h hz0 (by linarith)).2 (by rwa [hcz])) ((jacobi_zero_iff hα hβ hs hc hn h (hz0.trans hzx) hxπ).2 (by rwa [hcx]))
    (fun t ht h0 => by
      have t0 := hz0.trans ht.1
      have t1 := ht.2.trans hxπ
      refine h3 (Real.cos t) ⟨?_, ?_⟩ ((jacobi_zero_iff hα hβ hs hc hn h t0 t1).1 h0)
      · rw [← hcx]; exact Real.cos_lt_cos_of_nonneg_of_le_pi t0.le hxπ.le ht.2
      · rw [← hcz]; exact Real.cos_lt_cos_of_nonneg_of_le_pi hz0.le t1.le ht.1)
  rw [div_le_iff₀ hω0] at this
  rw [lt_div_iff₀ (by linarith)] at w2
  linarith

/-! ### weights -/

theorem jacW_nonneg' (α β : ℝ) : ∀ x ∈ Set.Ioo (-1 : ℝ) 1, 0 ≤ jacW α β x := fun _ hx =>
  mul_nonneg (Real.rpow_nonneg (by linarith [hx.2]) _) (Real.rpow_nonneg (by linarith [hx.1]) _)

theorem jacW_measurable (α β : ℝ) : Measurable (jacW α β) := by unfold jacW; fun_prop

theorem jacW_integrable (hα : -1 < α) (hβ : -1 < β) : IntegrableOn (jacW α β) (Set.Ioo (-1) 1) volume := by simpa using integrable_jacobi hα hβ 1

theorem jacobi_reproduces (hα : -1 < α) (hβ : -1 < β) (hc : 0 < c) (h : IsGauss L n (Set.Ioo (-1) 1) (jacW α β) c) : Reproduces L (dens (Set.Ioo (-1) 1) fun x => c * jacW α β x) :=
  reproduces_gauss measurableSet_Ioo (jacW_measurable α β) (jacW_nonneg' α β) (integrable_jacobi hα hβ) hc (posDef_jacobi hα hβ) h.exact'

theorem jacobi_finite (hα : -1 < α) (hβ : -1 < β) (c : ℝ) : IsFiniteMeasure (dens (Set.Ioo (-1) 1) fun x => c * jacW α β x) := dens_finite ((jacW_integrable hα hβ).const_mul c)

theorem jacobi_dens (hc : 0 < c) {T : Set ℝ} (hT : MeasurableSet T) :
    (dens (Set.Ioo (-1) 1) fun x => c * jacW α β x).real T = c * ∫ x in Set.Ioo (-1) 1 ∩ T, jacW α β x :=
  dens_real measurableSet_Ioo (jacW_measurable α β) (jacW_nonneg' α β) hc hT

/-- powers between 0 and 2 -/
theorem rpow_le_two {t a : ℝ} (h0 : 0 < t) (h2 : t ≤ 2) : t ^ a ≤ 2 ^ |a - min a (-(1 / 2))| * t ^ min a (-(1 / 2)) := by
  have e : t ^ a = t ^ (a - min a (-(1 / 2))) * t ^ min a (-(1 / 2)) := by rw [← Real.rpow_add h0]; congr 1; ring
  have hm : 0 ≤ a - min a (-(1 / 2)) := sub_nonneg.2 (min_le_left _ _)
  rw [e, abs_of_nonneg hm]
  exact mul_le_mul_of_nonneg_right (Real.rpow_le_rpow h0.le h2 hm) (Real.rpow_nonneg h0.le _)

theorem rpow_one_two {t b : ℝ} (h1 : 1 ≤ t) (h2 : t ≤ 2) : t ^ b ≤ 2 ^ |b| := by
  calc t ^ b ≤ t ^ |b| := Real.rpow_le_rpow_of_exponent_le h1 (le_abs_self b)
    _ ≤ 2 ^ |b| := Real.rpow_le_rpow (by linarith) h2 (abs_nonneg b)

theorem jacW_le (α β : ℝ) : ∃ B, 0 ≤ B ∧ ∀ x ∈ Set.Ioo (-1 : ℝ) 1, jacW α β x ≤ B * ((1 - x) ^ min α (-(1 / 2)) + (1 + x) ^ min β (-(1 / 2))) := by
  refine ⟨2 ^ |β| * 2 ^ |α - min α (-(1 / 2))| + 2 ^ |α| * 2 ^ |β - min β (-(1 / 2))|, by positivity, fun x hx => ?_⟩
  have p1 : 0 < 1 - x := by linarith [hx.2]
  have p2 : 0 < 1 + x := by linarith [hx.1]
  have q1 : 0 ≤ (1 - x) ^ min α (-(1 / 2)) := Real.rpow_nonneg p1.le _
  have q2 : 0 ≤ (1 + x) ^ min β (-(1 / 2)) := Real.rpow_nonneg p2.le _
  have b1 : (0 : ℝ) ≤ 2 ^ |β| * 2 ^ |α - min α (-(1 / 2))| := by positivity
  have b2 : (0 : ℝ) ≤ 2 ^ |α| * 2 ^ |β - min β (-(1 / 2))| := by positivity
  have key : jacW α β x ≤ 2 ^ |β| * 2 ^ |α - min α (-(1 / 2))| * (1 - x) ^ min α (-(1 / 2)) ∨ jacW α β x ≤ 2 ^ |α| * 2 ^ |β - min β (-(1 / 2))| * (1 + x) ^ min β (-(1 / 2)) := by
    rcases le_total 0 x with h | h
    · left
      have h3 := rpow_le_two (a := α) p1 (by linarith)
      have h4 := rpow_one_two (b := β) (show 1 ≤ 1 + x by linarith) (by linarith [hx.2])
      calc jacW α β x ≤ (2 ^ |α - min α (-(1 / 2))| * (1 - x) ^ min α (-(1 / 2))) * 2 ^ |β| := mul_le_mul h3 h4 (Real.rpow_nonneg p2.le _) (by positivity)
        _ = _ := by ring
    · right
      have h3 := rpow_le_two (a := β) p2 (by linarith)
      have h4 := rpow_one_two (b := α) (show 1 ≤ 1 - x by linarith) (by linarith [hx.1])
      calc jacW α β x ≤ 2 ^ |α| * (2 ^ |β - min β (-(1 / 2))| * (1 + x) ^ min β (-(1 / 2))) := mul_le_mul h4 h3 (Real.rpow_nonneg p2.le _) (by positivity)
        _ = _ := by ring
  have c1 := mul_nonneg b1 q2
  have c2 := mul_nonneg b2 q1
  have c3 := mul_nonneg b1 q1
  have c4 := mul_nonneg b2 q2
  rw [add_mul, mul_add, mul_add]
  rcases key with h | h <;> linarith

theorem rpow_half_sq {s a : ℝ} (hs : 0 ≤ s) : (2 * s ^ 2) ^ (a + 1) = 2 ^ (a + 1) * s ^ (2 * a + 2) := by
  rw [Real.mul_rpow (by norm_num) (by positivity), ← Real.rpow_natCast s 2, ← Real.rpow_mul hs]
  congr 2; push_cast; ring

/-- the integral of a power of `1 - x` between two angles -/
theorem integral_one_sub_rpow {a u v : ℝ} (ha : -1 < a) (ha2 : a ≤ -(1 / 2)) (hu : 0 ≤ u) (huv : u ≤ v) (hv : v ≤ Real.pi) :
    ∫ x in (Real.cos v)..(Real.cos u), (1 - x) ^ a ≤ 2 ^ (a + 1) / (a + 1) * (v - u) ^ (2 * a + 2) := by
  have h1 : ∫ x in (Real.cos v)..(Real.cos u), (1 - x) ^ a = ((1 - Real.cos v) ^ (a + 1) - (1 - Real.cos u) ^ (a + 1)) / (a + 1) := by
    rw [intervalIntegral.integral_comp_sub_left (fun x => x ^ a) 1, integral_rpow (Or.inl ha)]
  have s1 : ∀ t, 1 - Real.cos t = 2 * Real.sin (t / 2) ^ 2 := fun t => by linarith [half_sin_sq t]
  have hSu : 0 ≤ Real.sin (u / 2) := Real.sin_nonneg_of_nonneg_of_le_pi (by linarith) (by linarith)
  have hSv : 0 ≤ Real.sin (v / 2) := Real.sin_nonneg_of_nonneg_of_le_pi (by linarith) (by linarith)
  have hle : Real.sin (u / 2) ≤ Real.sin (v / 2) := Real.sin_le_sin_of_le_of_le_pi_div_two (by linarith [Real.pi_pos]) (by linarith) (by linarith)
  have hlip : Real.sin (v / 2) - Real.sin (u / 2) ≤ v - u := by
    have h2 : |Real.sin (v / 2) - Real.sin (u / 2)| ≤ |v / 2 - u / 2| := by
      have := Real.abs_sin_sub_sin_le (v / 2) (u / 2)
      exact this
    rw [abs_of_nonneg (by linarith), abs_of_nonneg (by linarith)] at h2
    linarith
  rw [h1, s1, s1, rpow_half_sq hSu, rpow_half_sq hSv, ← mul_sub, mul_div_right_comm]
  refine mul_le_mul_of_nonneg_left ?_ (div_nonneg (by positivity) (by linarith))
  have h3 := Real.rpow_add_le_add_rpow (p := 2 * a + 2) (sub_nonneg.2 hle) hSu (by linarith) (by linarith)
  rw [sub_add_cancel] at h3
  have h4 : (Real.sin (v / 2) - Real.sin (u / 2)) ^ (2 * a + 2) ≤ (v - u) ^ (2 * a + 2) := Real.rpow_le_rpow (by linarith) hlip (by linarith)
  linarith

theorem integral_one_add_rpow {a u v : ℝ} (ha : -1 < a) (ha2 : a ≤ -(1 / 2)) (hu : 0 ≤ u) (huv : u ≤ v) (hv : v ≤ Real.pi) :
    ∫ x in (Real.cos v)..(Real.cos u), (1 + x) ^ a ≤ 2 ^ (a + 1) / (a + 1) * (v - u) ^ (2 * a + 2) := by
  have h := integral_one_sub_rpow ha ha2 (u := Real.pi - v) (v := Real.pi - u) (by linarith) (by linarith) (by linarith)
  rw [Real.cos_pi_sub, Real.cos_pi_sub, show Real.pi - u - (Real.pi - v) = v - u by ring] at h
  rw [← intervalIntegral.integral_comp_neg] at h
  simpa [sub_neg_eq_add] using h

/-- in the angle the mass of an interval is at most a constant times a power of its length -/
theorem jacobi_mass_pow (hα : -1 < α) (hβ : -1 < β) : ∃ M, 0 ≤ M ∧ ∀ u v, 0 ≤ u → u ≤ v → v ≤ Real.pi →
    ∫ x in Set.Ioo (Real.cos v) (Real.cos u), jacW α β x ≤ M * (v - u) ^ min 1 (min (2 * α + 2) (2 * β + 2)) := by
  obtain ⟨B, hB, hW⟩ := jacW_le α β
  set a := min α (-(1 / 2)) with ha
  set b := min β (-(1 / 2)) with hb
  have a1 : -1 < a := lt_min hα (by norm_num)
  have b1 : -1 < b := lt_min hβ (by norm_num)
  have a2 : a ≤ -(1 / 2) := min_le_right _ _
  have b2 : b ≤ -(1 / 2) := min_le_right _ _
  set κ := min 1 (min (2 * α + 2) (2 * β + 2)) with hκ
  have ka : κ ≤ 2 * a + 2 := by
    rw [ha, hκ]
    rcases min_choice α (-(1 / 2)) with h | h <;> rw [h]
    · exact (min_le_right _ _).trans (min_le_left _ _)
    · exact (min_le_left _ _).trans (by norm_num)
  have kb : κ ≤ 2 * b + 2 := by
    rw [hb, hκ]
    rcases min_choice β (-(1 / 2)) with h | h <;> rw [h]
    · exact (min_le_right _ _).trans (min_le_right _ _)
    · exact (min_le_left _ _).trans (by norm_num)
  have hpi := Real.pi_pos
  have pw : ∀ ρ, κ ≤ ρ → ∀ d, 0 ≤ d → d ≤ Real.pi → d ^ ρ ≤ Real.pi ^ (ρ - κ) * d ^ κ := fun ρ hρ d hd hdp => by
    rcases hd.eq_or_lt with h | h
    · subst h
      have hκ0 : 0 < κ := lt_min one_pos (lt_min (by linarith) (by linarith))
      rw [Real.zero_rpow (by linarith), Real.zero_rpow (by linarith), mul_zero]
    · have e : d ^ ρ = d ^ (ρ - κ) * d ^ κ := by rw [← Real.rpow_add h]; congr 1; ring
      rw [e]
      exact mul_le_mul_of_nonneg_right (Real.rpow_le_rpow hd hdp (by linarith)) (Real.rpow_nonneg hd _)
  refine ⟨B * (2 ^ (a + 1) / (a + 1) * Real.pi ^ (2 * a + 2 - κ) + 2 ^ (b + 1) / (b + 1) * Real.pi ^ (2 * b + 2 - κ)), ?_, fun u v hu huv hv => ?_⟩
  · have : 0 ≤ (2 : ℝ) ^ (a + 1) / (a + 1) := div_nonneg (by positivity) (by linarith)
    have : 0 ≤ (2 : ℝ) ^ (b + 1) / (b + 1) := div_nonneg (by positivity) (by linarith)
    positivity
  have hcos : Real.cos v ≤ Real.cos u := Real.cos_le_cos_of_nonneg_of_le_pi hu hv huv
  have hsub : Set.Ioo (Real.cos v) (Real.cos u) ⊆ Set.Ioo (-1) 1 := Set.Ioo_subset_Ioo (Real.neg_one_le_cos v) (Real.cos_le_one u)
  have i1 : IntervalIntegrable (fun x : ℝ => (1 - x) ^ a) volume (Real.cos v) (Real.cos u) := by
    have := (intervalIntegral.intervalIntegrable_rpow' (a := 1 - Real.cos v) (b := 1 - Real.cos u) a1).comp_sub_left 1
    simpa using this
  have i2 : IntervalIntegrable (fun x : ℝ => (1 + x) ^ b) volume (Real.cos v) (Real.cos u) := by
    have := (intervalIntegral.intervalIntegrable_rpow' (a := 1 + Real.cos v) (b := 1 + Real.cos u) b1).comp_add_left 1
    simpa using this
  have h1 : ∫ x in Set.Ioo (Real.cos v) (Real.cos u), jacW α β x ≤ ∫ x in (Real.cos v)..(Real.cos u), B * ((1 - x) ^ a + (1 + x) ^ b) := by
    have i3 := (i1.add i2).const_mul B
    rw [intervalIntegral.integral_of_le hcos, integral_Ioc_eq_integral_Ioo]
    rw [intervalIntegrable_iff_integrableOn_Ioo_of_le hcos] at i3
    exact setIntegral_mono_on ((jacW_integrable hα hβ).mono_set hsub) i3 measurableSet_Ioo fun x hx => hW x (hsub hx)
  rw [intervalIntegral.integral_const_mul, intervalIntegral.integral_add i1 i2] at h1
  refine h1.trans ?_
  rw [mul_assoc]
  refine mul_le_mul_of_nonneg_left ?_ hB
  have d0 : 0 ≤ v - u := by linarith
  have dp : v - u ≤ Real.pi := by linarith
  have h2 := (integral_one_sub_rpow a1 a2 hu huv hv).trans (mul_le_mul_of_nonneg_left (pw _ ka _ d0 dp) (div_nonneg (by positivity) (by linarith)))
  have h3 := (integral_one_add_rpow b1 b2 hu huv hv).trans (mul_le_mul_of_nonneg_left (pw _ kb _ d0 dp) (div_nonneg (by positivity) (by linarith)))
  rw [add_mul]
  refine (add_le_add h2 h3).trans (le_of_eq ?_)
  ring

/-- `1 - cos u` is at least `2 u² / π²` on `[0, π]` -/
theorem one_sub_cos_ge {u : ℝ} (h0 : 0 ≤ u) (h1 : u ≤ Real.pi) : 2 * (u / Real.pi) ^ 2 ≤ 1 - Real.cos u := by
  have h := Real.mul_le_sin (x := u / 2) (by linarith) (by linarith)
  have e : 2 / Real.pi * (u / 2) = u / Real.pi := by field_simp
  rw [e] at h
  have h3 : 0 ≤ u / Real.pi := div_nonneg h0 Real.pi_pos.le
  have h2 : (u / Real.pi) ^ 2 ≤ Real.sin (u / 2) ^ 2 := pow_le_pow_left₀ h3 h 2
  linarith [half_sin_sq u]

/-- the largest weight is `O(n^(-min(1, 2α + 2, 2β + 2)))` -/
theorem jacobi_weight_rate (hα : -1 < α) (hβ : -1 < β) (hs : α + β ≠ -1) (hc : 0 < c) : ∃ K, 0 ≤ K ∧ ∀ (n : ℕ) (L : List (ℝ × ℝ)), 0 < n →
    IsGauss L n (Set.Ioo (-1) 1) (jacW α β) c → ∀ q ∈ L, q.2 ≤ K / (n : ℝ) ^ min 1 (min (2 * α + 2) (2 * β + 2)) := by
  obtain ⟨M, hM0, hM⟩ := jacobi_mass_pow hα hβ
  set κ := min 1 (min (2 * α + 2) (2 * β + 2)) with hκ
  have hκ0 : 0 < κ := lt_min one_pos (lt_min (by linarith) (by linarith))
  set m₀ := ∫ x in Set.Ioo (-1 : ℝ) 1, jacW α β x with hm₀
  have hm0 : 0 ≤ m₀ := setIntegral_nonneg measurableSet_Ioo (jacW_nonneg' α β)
  obtain ⟨A, hA1, hAα, hAβ⟩ : ∃ A : ℝ, 1 ≤ A ∧ max 0 (α ^ 2 - 1 / 4) ≤ A ^ 2 ∧ max 0 (β ^ 2 - 1 / 4) ≤ A ^ 2 := by
    refine ⟨1 + |α| + |β|, by linarith [abs_nonneg α, abs_nonneg β], ?_, ?_⟩
    · refine max_le (by positivity) ?_
      nlinarith [abs_nonneg α, abs_nonneg β, sq_abs α, mul_nonneg (abs_nonneg α) (abs_nonneg β)]
    · refine max_le (by positivity) ?_
      nlinarith [abs_nonneg α, abs_nonneg β, sq_abs β, mul_nonneg (abs_nonneg α) (abs_nonneg β)]
  have hpi := Real.pi_pos
  obtain ⟨N, hN⟩ := exists_nat_ge (8 * A + 12)
  have k1 : 0 ≤ m₀ * (N : ℝ) ^ κ := by positivity
  have k2 : 0 ≤ M * (8 * Real.pi * (A + 1)) ^ κ := mul_nonneg hM0 (Real.rpow_nonneg (by positivity) _)
  refine ⟨c * (m₀ * (N : ℝ) ^ κ + M * (8 * Real.pi * (A + 1)) ^ κ), mul_nonneg hc.le (by linarith), fun n L hn h q hq => ?_⟩
  have hfin := jacobi_finite hα hβ c
  have hr := jacobi_reproduces hα hβ hc h
  have hn1 : (1 : ℝ) ≤ n := by exact_mod_cast hn
  have hn0 : (0 : ℝ) < n := by linarith
  have hnκ : 0 < (n : ℝ) ^ κ := Real.rpow_pos_of_pos hn0 _
  rw [mul_div_assoc]
  have fin : ∀ T : Set ℝ, MeasurableSet T → q.2 ≤ (dens (Set.Ioo (-1) 1) fun x => c * jacW α β x).real T →
      ((∫ x in Set.Ioo (-1) 1 ∩ T, jacW α β x) * (n : ℝ) ^ κ ≤ m₀ * (N : ℝ) ^ κ + M * (8 * Real.pi * (A + 1)) ^ κ) →
      q.2 ≤ c * ((m₀ * (N : ℝ) ^ κ + M * (8 * Real.pi * (A + 1)) ^ κ) / (n : ℝ) ^ κ) := fun T hT h1 h2 => by
    refine h1.trans ?_
    rw [jacobi_dens hc hT]
    refine mul_le_mul_of_nonneg_left ?_ hc.le
    rwa [le_div_iff₀ hnκ]
  by_cases hsmall : n < N
  · refine fin Set.univ MeasurableSet.univ (hr.weight_le_mass hq) ?_
    rw [Set.inter_univ, ← hm₀]
    have : (n : ℝ) ^ κ ≤ (N : ℝ) ^ κ := Real.rpow_le_rpow hn0.le (by exact_mod_cast hsmall.le) hκ0.le
    have := mul_le_mul_of_nonneg_left this hm0
    linarith
  have hnN : 8 * A + 12 ≤ n := hN.trans (by exact_mod_cast not_lt.1 hsmall)
  -- the scale of the spacing
  set δ := Real.pi / (n / 4) with hδ
  have hδ0 : 0 < δ := by positivity
  have hδn : δ * n = 4 * Real.pi := by rw [hδ]; field_simp
  have hfit : 2 * (A * δ) + 3 * δ ≤ Real.pi := by
    have : (2 * (A * δ) + 3 * δ) * n ≤ Real.pi * n := by
      have e : (2 * (A * δ) + 3 * δ) * n = (8 * A + 12) * Real.pi := by linear_combination (2 * A + 3) * hδn
      rw [e, mul_comm]
      exact mul_le_mul_of_nonneg_left hnN hpi.le
    exact le_of_mul_le_mul_right this hn0
  have hAδ : 0 < A * δ := by positivity
  have hend : ∀ (x u : ℝ), max 0 x ≤ A ^ 2 → A * δ ≤ u → u ≤ Real.pi → max 0 x / (2 * (1 - Real.cos u)) ≤ n ^ 2 / 64 := fun x u hx hu hup => by
    have h1 := one_sub_cos_ge (hAδ.le.trans hu) hup
    have h2 : (4 * A / n) ^ 2 ≤ (u / Real.pi) ^ 2 := by
      refine pow_le_pow_left₀ (by positivity) ?_ 2
      rw [div_le_div_iff₀ hn0 hpi]
      calc 4 * A * Real.pi = A * δ * n := by linear_combination -A * hδn
        _ ≤ u * n := mul_le_mul_of_nonneg_right hu hn0.le
    have h3 : (4 * A / n) ^ 2 = 16 * A ^ 2 / n ^ 2 := by ring
    have h4 : 0 < 16 * A ^ 2 / (n : ℝ) ^ 2 := by positivity
    rw [h3] at h2
    rw [div_le_iff₀ (by linarith)]
    calc max 0 x ≤ A ^ 2 := hx
      _ = n ^ 2 / 64 * (2 * (2 * (16 * A ^ 2 / n ^ 2))) := by field_simp; norm_num
      _ ≤ _ := mul_le_mul_of_nonneg_left (by linarith) (by positivity)
  have hω : ∀ u v, A * δ ≤ u → u ≤ v → v ≤ Real.pi - A * δ →
      ((n : ℝ) / 4) ^ 2 ≤ (n + (α + β + 1) / 2) ^ 2 - max 0 (α ^ 2 - 1 / 4) / (2 * (1 - Real.cos u)) - max 0 (β ^ 2 - 1 / 4) / (2 * (1 + Real.cos v)) := fun u v hu huv hv => by
    have h1 := hend _ u hAα hu (by linarith)
    have h2 := hend _ (Real.pi - v) hAβ (by linarith) (by linarith)
    rw [Real.cos_pi_sub, sub_neg_eq_add] at h2
    have h3 : ((n : ℝ) / 2) ^ 2 ≤ (n + (α + β + 1) / 2) ^ 2 := pow_le_pow_left₀ (by positivity) (by linarith) 2
    have e1 : ((n : ℝ) / 2) ^ 2 = n ^ 2 / 4 := by ring
    have e2 : ((n : ℝ) / 4) ^ 2 = n ^ 2 / 16 := by ring
    have : 0 ≤ (n : ℝ) ^ 2 := by positivity
    rw [e1] at h3
    rw [e2]
    linarith
  have hn4 : (0 : ℝ) < n / 4 := by positivity
  -- the angle of the node
  obtain ⟨x1, x2⟩ : -1 < q.1 ∧ q.1 < 1 := ⟨gauss_nodes_gt hc h.exact' (posDef_jacobi hα hβ) (fun _ hx => hx.1.le) q hq,
    gauss_nodes_lt hc h.exact' (posDef_jacobi hα hβ) (fun _ hx => hx.2.le) q hq⟩
  obtain ⟨t, ht0, htπ, htc⟩ : ∃ t, 0 < t ∧ t < Real.pi ∧ Real.cos t = q.1 := by
    refine ⟨Real.arccos q.1, Real.arccos_pos.2 x2, ?_, Real.cos_arccos x1.le x2.le⟩
    have := Real.arccos_lt_arccos le_rfl x1 x2.le
    rwa [Real.arccos_neg_one] at this
  have hv : ∃ v, t < v ∧ v ≤ t + A * δ + δ ∧ v ≤ Real.pi ∧ (v = Real.pi ∨ Real.cos v ∈ L.map Prod.fst) := by
    by_cases hcase : max t (A * δ) + δ ≤ Real.pi - A * δ
    · obtain ⟨⟨v, v1, v2, v3⟩, -⟩ := jacobi_node_in hα hβ hs hc hn h (u := max t (A * δ)) (v := max t (A * δ) + δ) (lt_max_of_lt_left ht0) hn4 rfl (by linarith)
        (hω _ _ (le_max_right _ _) (by linarith) hcase)
      refine ⟨v, (le_max_left _ _).trans_lt v1, ?_, by linarith, Or.inr v3⟩
      have : max t (A * δ) ≤ t + A * δ := max_le (by linarith) (by linarith)
      linarith
    · push Not at hcase
      refine ⟨Real.pi, htπ, ?_, le_rfl, Or.inl rfl⟩
      rcases max_choice t (A * δ) with h1 | h1 <;> rw [h1] at hcase <;> linarith
  have hu : ∃ u, u < t ∧ t - A * δ - δ ≤ u ∧ 0 ≤ u ∧ (u = 0 ∨ Real.cos u ∈ L.map Prod.fst) := by
    by_cases hcase : A * δ ≤ min t (Real.pi - A * δ) - δ
    · have hm : min t (Real.pi - A * δ) ≤ Real.pi - A * δ := min_le_right _ _
      obtain ⟨-, u, u1, u2, u3⟩ := jacobi_node_in hα hβ hs hc hn h (u := min t (Real.pi - A * δ) - δ) (v := min t (Real.pi - A * δ)) (by linarith) hn4
        (by rw [← hδ]; ring) (by linarith) (hω _ _ hcase (by linarith) hm)
      refine ⟨u, u2.trans_le (min_le_left _ _), ?_, by linarith, Or.inr u3⟩
      have : t - A * δ ≤ min t (Real.pi - A * δ) := le_min (by linarith) (by linarith)
      linarith
    · push Not at hcase
      refine ⟨0, ht0, ?_, le_rfl, Or.inl rfl⟩
      rcases min_choice t (Real.pi - A * δ) with h1 | h1 <;> rw [h1] at hcase <;> linarith
  obtain ⟨v, v1, v2, v3, v4⟩ := hv
  obtain ⟨u, u1, u2, u3, u4⟩ := hu
  have hcv : Real.cos v < q.1 := by rw [← htc]; exact Real.cos_lt_cos_of_nonneg_of_le_pi ht0.le v3 v1
  have hcu : q.1 < Real.cos u := by rw [← htc]; exact Real.cos_lt_cos_of_nonneg_of_le_pi u3 htπ.le u1
  have hlen : (∫ x in Set.Ioo (Real.cos v) (Real.cos u), jacW α β x) * (n : ℝ) ^ κ ≤ m₀ * (N : ℝ) ^ κ + M * (8 * Real.pi * (A + 1)) ^ κ := by
    have h1 := hM u v u3 (by linarith) v3
    have h2 : (v - u) ^ κ ≤ (2 * (A + 1) * δ) ^ κ := Real.rpow_le_rpow (by linarith) (by linarith) hκ0.le
    have h3 : (2 * (A + 1) * δ) ^ κ * (n : ℝ) ^ κ = (8 * Real.pi * (A + 1)) ^ κ := by
      rw [← Real.mul_rpow (by positivity) hn0.le]
      congr 1
      linear_combination 2 * (A + 1) * hδn
    calc _ ≤ M * (2 * (A + 1) * δ) ^ κ * (n : ℝ) ^ κ := mul_le_mul_of_nonneg_right (h1.trans (mul_le_mul_of_nonneg_left h2 hM0)) hnκ.le
      _ = M * (8 * Real.pi * (A + 1)) ^ κ := by rw [mul_assoc, h3]
      _ ≤ _ := by linarith
  rcases v4 with rfl | v4
  · rcases u4 with rfl | u4
    · exfalso; linarith
    · refine fin (Set.Iio (Real.cos u)) measurableSet_Iio (hr.weight_le_left hq u4 hcu) ?_
      rw [Real.cos_pi] at hlen
      rwa [Set.Ioo_inter_Iio, min_eq_right (Real.cos_le_one u)]
  · rcases u4 with rfl | u4
    · refine fin (Set.Ioi (Real.cos v)) measurableSet_Ioi (hr.weight_le_right hq v4 hcv) ?_
      rw [Real.cos_zero] at hlen
      rwa [Set.Ioo_inter_Ioi, max_eq_right (Real.neg_one_le_cos v)]
    · refine fin (Set.Ioo (Real.cos v) (Real.cos u)) measurableSet_Ioo (hr.weight_le hq v4 u4 hcv hcu) ?_
      rwa [Set.inter_eq_right.2 (show Set.Ioo (Real.cos v) (Real.cos u) ⊆ Set.Ioo (-1) 1 from Set.Ioo_subset_Ioo (Real.neg_one_le_cos v) (Real.cos_le_one u))]

end GaussQuad
