import Verif.Proofs.GolubRules
import Mathlib.MeasureTheory.Function.JacobianOneDim
import Mathlib.MeasureTheory.Measure.Lebesgue.Integral
import Mathlib.MeasureTheory.Integral.Gamma

/-!
Quadratic transformations: an even weight on a symmetric interval against a weight on a half of it, in the variable `x²`.
-/

namespace GaussQuad
open Polynomial Spec MeasureTheory

/-- the list `L` with a middle part and the mirror image of `L` in front -/
noncomputable def mirrored (L mid : List (ℝ × ℝ)) : List (ℝ × ℝ) := (L.map fun p => (-p.1, p.2)).reverse ++ (mid ++ L)

theorem length_mirrored (L mid : List (ℝ × ℝ)) : (mirrored L mid).length = 2 * L.length + mid.length := by
  simp only [mirrored, List.length_append, List.length_reverse, List.length_map]; omega

theorem quad_append (L M : List (ℝ × ℝ)) (f : ℝ → ℝ) : quad (L ++ M) f = quad L f + quad M f := by simp [quad]

theorem quad_mirrored (L mid : List (ℝ × ℝ)) (f : ℝ → ℝ) : quad (mirrored L mid) f = quad L (fun x => f (-x) + f x) + quad mid f := by
  rw [mirrored, quad_append, quad_append]
  have : quad (L.map fun p => (-p.1, p.2)).reverse f = quad L fun x => f (-x) := by
    rw [quad, quad, List.map_reverse, List.sum_reverse, List.map_map]; rfl
  rw [this]
  have : quad L (fun x => f (-x) + f x) = quad L (fun x => f (-x)) + quad L f := by
    simp only [quad, mul_add, List.sum_map_add]
  rw [this]
  ring

theorem sorted_mirrored {L mid : List (ℝ × ℝ)} (hs : L.Pairwise fun p q => p.1 ≤ q.1) (hpos : ∀ p ∈ L, 0 ≤ p.1) (hmid : ∀ p ∈ mid, p.1 = 0) :
    (mirrored L mid).Pairwise fun p q => p.1 ≤ q.1 := by
  rw [mirrored, List.pairwise_append, List.pairwise_append]
  refine ⟨?_, ⟨?_, hs, ?_⟩, ?_⟩
  · rw [List.pairwise_reverse, List.pairwise_map]
    exact hs.imp fun h => neg_le_neg h
  · exact List.pairwise_iff_getElem.2 fun i j hi hj _ => by rw [hmid _ (List.getElem_mem hi), hmid _ (List.getElem_mem hj)]
  · intro a ha b hb; rw [hmid a ha]; exact hpos b hb
  · intro a ha b hb
    obtain ⟨p, hp, rfl⟩ := List.mem_map.1 (List.mem_reverse.1 ha)
    have h1 := hpos p hp
    rcases List.mem_append.1 hb with hb | hb
    · rw [hmid b hb]; show -p.1 ≤ 0; linarith
    · have := hpos b hb; show -p.1 ≤ b.1; linarith

theorem quad_sum {ι : Type*} (L : List (ℝ × ℝ)) (s : Finset ι) (f : ι → ℝ → ℝ) : quad L (fun x => ∑ i ∈ s, f i x) = ∑ i ∈ s, quad L (f i) := by
  induction L with
  | nil => simp [quad]
  | cons p L ih =>
    have h : ∀ g : ℝ → ℝ, quad (p :: L) g = p.2 * g p.1 + quad L g := fun g => by simp [quad]
    simp only [h]
    rw [ih, Finset.mul_sum, ← Finset.sum_add_distrib]

theorem quad_mul_left (L : List (ℝ × ℝ)) (c : ℝ) (f : ℝ → ℝ) : quad L (fun x => c * f x) = c * quad L f := by
  simp only [quad]
  rw [← List.sum_map_mul_left]
  congr 1
  apply List.map_congr_left
  intro p _; ring

/-- exactness needs to be checked for powers only -/
theorem exactUpTo_of_pow {L : List (ℝ × ℝ)} {d : ℕ} {S : Set ℝ} {w : ℝ → ℝ} {c : ℝ} (hint : ∀ p : ℝ[X], IntegrableOn (fun x => p.eval x * w x) S)
    (h : ∀ k ≤ d, quad L (fun x => x ^ k) = c * weightIntegral S w (X ^ k)) : ExactUpTo L d S w c := by
  intro p hp
  have e : ∀ x, p.eval x = ∑ i ∈ Finset.range (d + 1), p.coeff i * x ^ i := fun x => eval_eq_sum_range' (by omega) x
  have e2 : weightIntegral S w p = ∑ i ∈ Finset.range (d + 1), p.coeff i * weightIntegral S w (X ^ i) := by
    have h1 : weightFunctional S w hint p = ∑ i ∈ Finset.range (d + 1), p.coeff i * weightFunctional S w hint (X ^ i) := by
      conv_lhs => rw [p.as_sum_range' (d + 1) (by omega)]
      rw [map_sum]
      refine Finset.sum_congr rfl fun i _ => ?_
      rw [← C_mul_X_pow_eq_monomial, ← smul_eq_C_mul, map_smul, smul_eq_mul]
    exact h1
  simp only [e]
  rw [quad_sum, e2, Finset.mul_sum]
  refine Finset.sum_congr rfl fun i hi => ?_
  rw [quad_mul_left, h i (by rw [Finset.mem_range] at hi; omega)]
  ring

theorem weightIntegral_odd {S : Set ℝ} {w : ℝ → ℝ} (hint : ∀ p : ℝ[X], IntegrableOn (fun x => p.eval x * w x) S)
    (hrefl : ∀ p : ℝ[X], weightIntegral S w (p.comp (-X)) = weightIntegral S w p) (k : ℕ) : weightIntegral S w (X ^ (2 * k + 1)) = 0 := by
  have h := hrefl (X ^ (2 * k + 1))
  have e : (X ^ (2 * k + 1) : ℝ[X]).comp (-X) = (-1 : ℝ) • X ^ (2 * k + 1) := by
    rw [X_pow_comp, neg_pow, pow_add, pow_mul]; simp
  rw [e] at h
  have h2 : weightFunctional S w hint ((-1 : ℝ) • X ^ (2 * k + 1)) = -weightFunctional S w hint (X ^ (2 * k + 1)) := by rw [map_smul]; simp
  change weightIntegral S w ((-1 : ℝ) • X ^ (2 * k + 1)) = -weightIntegral S w (X ^ (2 * k + 1)) at h2
  linarith

/-- a mirrored rule is exact if the even powers come out right -/
theorem isGauss_mirrored {L mid : List (ℝ × ℝ)} {n : ℕ} {S : Set ℝ} {w : ℝ → ℝ} {c : ℝ} (hint : ∀ p : ℝ[X], IntegrableOn (fun x => p.eval x * w x) S)
    (hrefl : ∀ p : ℝ[X], weightIntegral S w (p.comp (-X)) = weightIntegral S w p) (hs : L.Pairwise fun p q => p.1 ≤ q.1) (hpos : ∀ p ∈ L, 0 ≤ p.1)
    (hmid : ∀ p ∈ mid, p.1 = 0) (hlen : 2 * L.length + mid.length = n)
    (h : ∀ k, 2 * k ≤ 2 * n - 1 → 2 * quad L (fun x => x ^ (2 * k)) + quad mid (fun x => x ^ (2 * k)) = c * weightIntegral S w (X ^ (2 * k))) :
    IsGauss (mirrored L mid) n S w c := by
  refine ⟨by rw [length_mirrored, hlen], sorted_mirrored hs hpos hmid, ?_⟩
  rw [length_mirrored, hlen]
  refine exactUpTo_of_pow hint fun m hm => ?_
  rw [quad_mirrored]
  rcases Nat.even_or_odd' m with ⟨k, rfl | rfl⟩
  · rw [← h k hm]
    congr 1
    have e : ∀ x : ℝ, (-x) ^ (2 * k) + x ^ (2 * k) = 2 * x ^ (2 * k) := fun x => by rw [Even.neg_pow ⟨k, by ring⟩]; ring
    simp only [e]
    rw [quad_mul_left]
  · rw [weightIntegral_odd hint hrefl, mul_zero]
    have h1 : quad mid (fun x => x ^ (2 * k + 1)) = 0 := by
      unfold quad
      refine List.sum_eq_zero fun y hy => ?_
      obtain ⟨p, hp, rfl⟩ := List.mem_map.1 hy
      rw [hmid p hp]; simp
    rw [h1, add_zero]
    have h2 : ∀ x : ℝ, (-x) ^ (2 * k + 1) + x ^ (2 * k + 1) = 0 := fun x => by rw [Odd.neg_pow ⟨k, rfl⟩]; ring
    simp [quad, h2]

/-! ### Hermite and Laguerre -/

theorem hermite_laguerre_moment (k : ℕ) : weightIntegral Set.univ hermW (X ^ (2 * k)) = weightIntegral (Set.Ioi 0) (lagW (-1 / 2)) (X ^ k) := by
  have h1 := laguerre_moment (α := -1 / 2) (by norm_num) k
  rw [weightFunctional_apply] at h1
  rw [h1]
  unfold weightIntegral
  rw [setIntegral_univ]
  have e : (fun x : ℝ => (X ^ (2 * k) : ℝ[X]).eval x * hermW x) = fun x => (fun y : ℝ => y ^ (2 * k) * Real.exp (-y ^ 2)) |x| := by
    ext x
    simp only [eval_pow, eval_X, hermW, sq_abs]
    rw [pow_mul, pow_mul, sq_abs]
  rw [e, integral_comp_abs (f := fun y : ℝ => y ^ (2 * k) * Real.exp (-y ^ 2))]
  have hk : (-1 : ℝ) < 2 * k := by
    have : (0 : ℝ) ≤ k := Nat.cast_nonneg k
    linarith
  have h2 := integral_rpow_mul_exp_neg_rpow (p := 2) (q := 2 * k) (by norm_num) hk
  have e2 : ∫ y in Set.Ioi (0 : ℝ), y ^ (2 * k) * Real.exp (-y ^ 2) = ∫ y in Set.Ioi (0 : ℝ), y ^ (2 * (k : ℝ)) * Real.exp (-y ^ (2 : ℝ)) := by
    refine setIntegral_congr_fun measurableSet_Ioi fun y _ => ?_
    rw [show (2 * (k : ℝ)) = ((2 * k : ℕ) : ℝ) by push_cast; ring, Real.rpow_natCast, Real.rpow_two]
  rw [e2, h2, show (2 * (k : ℝ) + 1) / 2 = k + -1 / 2 + 1 by ring]
  ring

theorem lagW_shift (k : ℕ) : weightIntegral (Set.Ioi 0) (lagW (1 / 2)) (X ^ k) = weightIntegral (Set.Ioi 0) (lagW (-1 / 2)) (X ^ (k + 1)) := by
  refine setIntegral_congr_fun measurableSet_Ioi fun x hx => ?_
  simp only [eval_pow, eval_X, lagW]
  rw [show (1 / 2 : ℝ) = 1 + -1 / 2 by norm_num, Real.rpow_add hx, Real.rpow_one, pow_succ]
  ring

/-! ### Jacobi with equal parameters -/

theorem jacW_even {α x : ℝ} (hx : x ∈ Set.Ioo (-1 : ℝ) 1) : jacW α α x = (1 - x ^ 2) ^ α := by
  rw [jacW, ← Real.mul_rpow (by linarith [hx.2]) (by linarith [hx.1])]
  congr 1; ring

theorem jacobi_quadratic_moment (α : ℝ) (k : ℕ) : weightIntegral (Set.Ioo (-1) 1) (jacW α (-1 / 2)) ((C (1 / 2) * X + C (1 / 2)) ^ k) =
    2 ^ (α + 1 / 2) * weightIntegral (Set.Ioo (-1) 1) (jacW α α) (X ^ (2 * k)) := by
  have himg : (fun x : ℝ => 2 * x ^ 2 - 1) '' Set.Ioo 0 1 = Set.Ioo (-1) 1 := by
    ext t
    constructor
    · rintro ⟨x, ⟨h0, h1⟩, rfl⟩
      exact ⟨by simp only; nlinarith [pow_pos h0 2], by simp only; nlinarith⟩
    · rintro ⟨h0, h1⟩
      refine ⟨Real.sqrt ((1 + t) / 2), ⟨Real.sqrt_pos.2 (by linarith), ?_⟩, ?_⟩
      · rw [Real.sqrt_lt' one_pos]; linarith
      · simp only; rw [Real.sq_sqrt (by linarith)]; ring
  have hinj : Set.InjOn (fun x : ℝ => 2 * x ^ 2 - 1) (Set.Ioo 0 1) := by
    intro x hx y hy h
    simp only at h
    have : x ^ 2 = y ^ 2 := by linarith
    exact (pow_left_inj₀ hx.1.le hy.1.le two_ne_zero).1 this
  have h := integral_image_eq_integral_abs_deriv_smul (s := Set.Ioo (0 : ℝ) 1) (f := fun x : ℝ => 2 * x ^ 2 - 1) (f' := fun x => 4 * x) measurableSet_Ioo
    (fun x _ => by
      have := ((hasDerivAt_pow 2 x).const_mul 2).sub_const 1
      refine HasDerivAt.hasDerivWithinAt (this.congr_deriv ?_)
      push_cast; ring) hinj (fun t => ((C (1 / 2) * X + C (1 / 2)) ^ k : ℝ[X]).eval t * jacW α (-1 / 2) t)
  rw [himg] at h
  have e : ∀ x ∈ Set.Ioo (0 : ℝ) 1, |4 * x| • (((C (1 / 2) * X + C (1 / 2)) ^ k : ℝ[X]).eval (2 * x ^ 2 - 1) * jacW α (-1 / 2) (2 * x ^ 2 - 1)) =
      2 ^ (α + 3 / 2) * (x ^ (2 * k) * (1 - x ^ 2) ^ α) := by
    intro x hx
    have hx0 := hx.1
    have h1 : 0 < 1 - x ^ 2 := by nlinarith [hx.2]
    simp only [eval_pow, eval_add, eval_mul, eval_C, eval_X, jacW, smul_eq_mul]
    rw [abs_of_pos (by linarith), show 1 - (2 * x ^ 2 - 1) = 2 * (1 - x ^ 2) by ring, show 1 + (2 * x ^ 2 - 1) = 2 * x ^ 2 by ring,
      show 1 / 2 * (2 * x ^ 2 - 1) + 1 / 2 = x ^ 2 by ring, Real.mul_rpow (by norm_num) h1.le, Real.mul_rpow (by norm_num) (by positivity),
      ← Real.rpow_natCast x 2, ← Real.rpow_mul hx0.le, show ((2 : ℕ) : ℝ) * (-1 / 2) = -1 by norm_num, Real.rpow_neg_one, Real.rpow_natCast, ← pow_mul,
      show α + 3 / 2 = α + -1 / 2 + 2 by ring, Real.rpow_add (by norm_num), Real.rpow_add (by norm_num)]
    norm_num
    field_simp
  rw [setIntegral_congr_fun measurableSet_Ioo e, integral_const_mul] at h
  -- the even integrand over the whole interval
  have h2 : weightIntegral (Set.Ioo (-1) 1) (jacW α α) (X ^ (2 * k)) = 2 * ∫ x in Set.Ioo (0 : ℝ) 1, x ^ (2 * k) * (1 - x ^ 2) ^ α := by
    unfold weightIntegral
    rw [← integral_indicator measurableSet_Ioo]
    have e2 : (Set.Ioo (-1 : ℝ) 1).indicator (fun x => (X ^ (2 * k) : ℝ[X]).eval x * jacW α α x) =
        fun x => (Set.Iio (1 : ℝ)).indicator (fun y : ℝ => y ^ (2 * k) * (1 - y ^ 2) ^ α) |x| := by
      ext x
      by_cases hx : x ∈ Set.Ioo (-1 : ℝ) 1
      · rw [Set.indicator_of_mem hx, Set.indicator_of_mem (show |x| ∈ Set.Iio 1 from abs_lt.2 hx), jacW_even hx, sq_abs, eval_pow, eval_X, pow_mul, pow_mul, sq_abs]
      · rw [Set.indicator_of_notMem hx, Set.indicator_of_notMem (show |x| ∉ Set.Iio 1 from fun h => hx (abs_lt.1 h))]
    rw [e2, integral_comp_abs, setIntegral_indicator measurableSet_Iio, Set.Ioi_inter_Iio]
  rw [weightIntegral, h, h2, show α + 3 / 2 = α + 1 / 2 + 1 by ring, Real.rpow_add (by norm_num) (α + 1 / 2), Real.rpow_one]
  ring

theorem jacW_shift (α : ℝ) (k : ℕ) : weightIntegral (Set.Ioo (-1) 1) (jacW α (1 / 2)) ((C (1 / 2) * X + C (1 / 2)) ^ k) =
    2 * weightIntegral (Set.Ioo (-1) 1) (jacW α (-1 / 2)) ((C (1 / 2) * X + C (1 / 2)) ^ (k + 1)) := by
  unfold weightIntegral
  rw [← integral_const_mul]
  refine setIntegral_congr_fun measurableSet_Ioo fun x hx => ?_
  have hx0 : 0 < 1 + x := by linarith [hx.1]
  simp only [eval_pow, eval_add, eval_mul, eval_C, eval_X, jacW]
  rw [show (1 / 2 : ℝ) = 1 + -1 / 2 by norm_num, Real.rpow_add hx0, Real.rpow_one, pow_succ]
  ring

end GaussQuad
