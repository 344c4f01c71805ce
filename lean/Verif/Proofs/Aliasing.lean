import Verif.Proofs.ChebyshevClosed
import Verif.Spec.ChebyshevSeries
import Mathlib.Analysis.Normed.Group.InfiniteSum
import Mathlib.MeasureTheory.Integral.DominatedConvergence
import Mathlib.Topology.Algebra.InfiniteSum.NatInt

/-! The Gauss-Chebyshev rules on Chebyshev polynomials of any degree, and on Chebyshev series. -/

namespace GaussQuad
open Polynomial Spec MeasureTheory FloatOps Props

theorem T_eval_arccos {x : ℝ} (h1 : -1 ≤ x) (h2 : x ≤ 1) (m : ℕ) : (Chebyshev.T ℝ m).eval x = Real.cos (m * Real.arccos x) := by
  have := Chebyshev.T_real_cos (Real.arccos x) m
  rw [Real.cos_arccos h1 h2] at this
  simpa using this

theorem abs_T_le {x : ℝ} (h1 : -1 ≤ x) (h2 : x ≤ 1) (m : ℕ) : |(Chebyshev.T ℝ m).eval x| ≤ 1 := by
  rw [T_eval_arccos h1 h2]
  exact Real.abs_cos_le_one _

/-! ### single polynomials -/

theorem quad1_T {n : ℕ} (hn : 0 < n) (m : ℕ) : quad (pairs1 n) (fun x => (Chebyshev.T ℝ m).eval x) = if 2 * n ∣ m then (-1) ^ (m / (2 * n)) * Real.pi else 0 := by
  have h : quad (pairs1 n) (fun x => (Chebyshev.T ℝ m).eval x) = Chebyshev.sumZeroes n (Chebyshev.T ℝ m) := by
    rw [quad_pairs1, Chebyshev.sumZeroes]
    congr 1
    refine Finset.sum_congr rfl fun i _ => ?_
    rw [node1, show (2 * (i : ℝ) + 1) * Real.pi / (2 * n) = (2 * i + 1) / (2 * n) * Real.pi by ring]
  rw [h]
  split_ifs with hd
  · obtain ⟨k, rfl⟩ := hd
    have hn0 : (n : ℝ) ≠ 0 := by positivity
    rw [Nat.mul_div_cancel_left _ (by omega), Chebyshev.sumZeroes]
    have e : ∀ i ∈ Finset.range n, (Chebyshev.T ℝ ((2 * n * k : ℕ) : ℤ)).eval (Real.cos ((2 * (i : ℝ) + 1) / (2 * n) * Real.pi)) = (-1) ^ k := fun i _ => by
      rw [Chebyshev.T_real_cos]
      have : (((2 * n * k : ℕ) : ℤ) : ℝ) * ((2 * (i : ℝ) + 1) / (2 * n) * Real.pi) = (k : ℝ) * Real.pi + ((k * i : ℕ) : ℝ) * (2 * Real.pi) := by
        push_cast; field_simp; ring
      rw [this, Real.cos_add_nat_mul_two_pi, Real.cos_nat_mul_pi]
    rw [Finset.sum_congr rfl e, Finset.sum_const, Finset.card_range, nsmul_eq_mul]
    field_simp
  · refine Chebyshev.sumZeroes_T_of_not_dvd fun hd' => hd ?_
    exact_mod_cast hd'

theorem lobatto_T {N : ℕ} (hN : 0 < N) (k : ℤ) : lobattoSum N (Chebyshev.T ℝ k) = if (2 * N : ℤ) ∣ k then Real.pi else 0 := by
  split_ifs with hd
  · obtain ⟨q, rfl⟩ := hd
    have hN0 : (N : ℝ) ≠ 0 := by positivity
    have e : ∀ j : ℕ, (Chebyshev.T ℝ (2 * (N : ℤ) * q)).eval (Real.cos ((j : ℝ) * Real.pi / N)) = 1 := fun j => by
      rw [Chebyshev.T_real_cos]
      have : ((2 * (N : ℤ) * q : ℤ) : ℝ) * ((j : ℝ) * Real.pi / N) = ((q * j : ℤ) : ℝ) * (2 * Real.pi) := by
        push_cast; field_simp
      rw [this, Real.cos_int_mul_two_pi]
    unfold lobattoSum
    simp only [e]
    rw [Finset.sum_const, Finset.card_range, nsmul_eq_mul]
    field_simp
    norm_num
  · rw [lobattoSum_T N hN.ne', Chebyshev.sumZeroes_T_of_not_dvd hd, mul_zero]

theorem sin_sq_T (m : ℤ) (x : ℝ) : (Chebyshev.T ℝ m * (1 - X ^ 2)).eval x =
    (Chebyshev.T ℝ m).eval x / 2 - (Chebyshev.T ℝ (m + 2)).eval x / 4 - (Chebyshev.T ℝ (m - 2)).eval x / 4 := by
  have h := congrArg (eval x) (Chebyshev.T_mul_T ℝ m 2)
  have h2 := congrArg (eval x) (Chebyshev.T_two ℝ)
  simp only [eval_mul, eval_add, eval_sub, eval_ofNat, eval_pow, eval_X, eval_one] at h h2 ⊢
  rw [h2] at h
  linarith

theorem quad2_lobatto (n : ℕ) (p : ℝ[X]) : quad (pairs2 n) (fun x => p.eval x) = lobattoSum (n + 1) (p * (1 - X ^ 2)) := by
  rw [pairs2, quad_map_rangeRev, lobattoSum]
  set N : ℝ := ((n + 1 : ℕ) : ℝ) with hNdef
  have hN : N ≠ 0 := by rw [hNdef]; positivity
  simp_rw [add_div]
  rw [Finset.sum_add_distrib, Finset.sum_range_succ', Finset.sum_range_succ]
  have z1 : (p * (1 - X ^ 2)).eval (Real.cos (((0 : ℕ) : ℝ) * Real.pi / N)) = 0 := by simp
  have z2 : (p * (1 - X ^ 2)).eval (Real.cos (((n + 1 : ℕ) : ℝ) * Real.pi / N)) = 0 := by
    rw [mul_div_right_comm, ← hNdef, div_self hN]; simp
  rw [z1, z2, zero_div, add_zero, ← Finset.sum_add_distrib, Finset.mul_sum]
  apply Finset.sum_congr rfl
  intro i _
  simp only [GaussChebyshevSecondKind.pair, real_pi, real_mul, real_add, real_div, real_ofNat, real_cos, real_sin, real_lit_one]
  have e : Real.pi * ((i + 1 : ℕ) : ℝ) * (1 / ((n : ℝ) + 1)) = ((i + 1 : ℕ) : ℝ) * Real.pi / N := by
    rw [hNdef]; push_cast; field_simp
  rw [e, eval_mul, eval_sub, eval_one, eval_pow, eval_X, ← Real.sin_sq]
  rw [hNdef]; push_cast; field_simp; ring

theorem quad2_T (n : ℕ) (m : ℤ) : quad (pairs2 n) (fun x => (Chebyshev.T ℝ m).eval x) =
    (if (2 * (n + 1 : ℕ) : ℤ) ∣ m then Real.pi else 0) / 2 - (if (2 * (n + 1 : ℕ) : ℤ) ∣ m + 2 then Real.pi else 0) / 4 -
      (if (2 * (n + 1 : ℕ) : ℤ) ∣ m - 2 then Real.pi else 0) / 4 := by
  rw [quad2_lobatto, ← lobatto_T (by omega), ← lobatto_T (by omega), ← lobatto_T (by omega)]
  unfold lobattoSum
  simp only [sin_sq_T]
  rw [mul_div_assoc, mul_div_assoc, mul_div_assoc, ← mul_sub, ← mul_sub, Finset.sum_div, Finset.sum_div, Finset.sum_div, ← Finset.sum_sub_distrib, ← Finset.sum_sub_distrib]
  congr 1
  refine Finset.sum_congr rfl fun j _ => ?_
  ring

/-! ### series -/

theorem _root_.HasSum.congr_fun' {f g : ℕ → ℝ} {s : ℝ} (h : HasSum f s) (e : ∀ m, g m = f m) : HasSum g s := by
  rwa [show g = f from funext e]

variable {F : ℝ → ℝ} {c : ℕ → ℝ}

theorem hasSum_T (hc : Summable fun m => |c m|) (hF : ∀ x ∈ Set.Icc (-1 : ℝ) 1, F x = ∑' m : ℕ, c m * (Chebyshev.T ℝ m).eval x) {x : ℝ} (hx : x ∈ Set.Icc (-1 : ℝ) 1) :
    HasSum (fun m : ℕ => c m * (Chebyshev.T ℝ m).eval x) (F x) := by
  rw [hF x hx]
  refine (Summable.of_norm_bounded hc fun m => ?_).hasSum
  rw [Real.norm_eq_abs, abs_mul]
  exact mul_le_of_le_one_right (abs_nonneg _) (abs_T_le hx.1 hx.2 m)

theorem hasSum_quad (hc : Summable fun m => |c m|) (hF : ∀ x ∈ Set.Icc (-1 : ℝ) 1, F x = ∑' m : ℕ, c m * (Chebyshev.T ℝ m).eval x) :
    ∀ {L : List (ℝ × ℝ)}, (∀ p ∈ L, p.1 ∈ Set.Icc (-1 : ℝ) 1) → HasSum (fun m : ℕ => c m * quad L fun x => (Chebyshev.T ℝ m).eval x) (quad L F)
  | [], _ => by simp [quad]
  | p :: L, h => by
    have h1 := (hasSum_T hc hF (h p List.mem_cons_self)).mul_left p.2
    have h2 := hasSum_quad hc hF (L := L) fun q hq => h q (List.mem_cons_of_mem _ hq)
    have h3 := h1.add h2
    have e : quad (p :: L) F = p.2 * F p.1 + quad L F := by simp [quad]
    rw [e]
    refine h3.congr_fun' fun m => ?_
    simp only [quad, List.map_cons, List.sum_cons]
    ring

theorem hasSum_weight {w : ℝ → ℝ} (hw0 : ∀ x ∈ Set.Ioo (-1 : ℝ) 1, 0 ≤ w x) (hint : ∀ p : ℝ[X], IntegrableOn (fun x => p.eval x * w x) (Set.Ioo (-1) 1))
    (hc : Summable fun m => |c m|) (hF : ∀ x ∈ Set.Icc (-1 : ℝ) 1, F x = ∑' m : ℕ, c m * (Chebyshev.T ℝ m).eval x) :
    HasSum (fun m : ℕ => c m * weightIntegral (Set.Ioo (-1) 1) w (Chebyshev.T ℝ m)) (∫ x in Set.Ioo (-1 : ℝ) 1, F x * w x) := by
  have hw : IntegrableOn w (Set.Ioo (-1 : ℝ) 1) := by simpa using hint 1
  have hi : ∀ m : ℕ, Integrable (fun x => c m * ((Chebyshev.T ℝ m).eval x * w x)) (volume.restrict (Set.Ioo (-1 : ℝ) 1)) := fun m =>
    (hint (Chebyshev.T ℝ m)).const_mul (c m)
  have hs : Summable fun m : ℕ => ∫ x in Set.Ioo (-1 : ℝ) 1, ‖c m * ((Chebyshev.T ℝ m).eval x * w x)‖ := by
    refine Summable.of_nonneg_of_le (fun m => integral_nonneg fun x => norm_nonneg _) (fun m => ?_) (hc.mul_right (∫ x in Set.Ioo (-1 : ℝ) 1, w x))
    rw [← integral_const_mul]
    refine setIntegral_mono_on (hi m).norm (hw.const_mul _) measurableSet_Ioo fun x hx => ?_
    rw [Real.norm_eq_abs, abs_mul, abs_mul, abs_of_nonneg (hw0 x hx)]
    exact mul_le_mul_of_nonneg_left (mul_le_of_le_one_left (hw0 x hx) (abs_T_le hx.1.le hx.2.le m)) (abs_nonneg _)
  have h := hasSum_integral_of_summable_integral_norm hi hs
  have e : ∫ x in Set.Ioo (-1 : ℝ) 1, F x * w x = ∫ x in Set.Ioo (-1 : ℝ) 1, ∑' m : ℕ, c m * ((Chebyshev.T ℝ m).eval x * w x) := by
    refine setIntegral_congr_fun measurableSet_Ioo fun x hx => ?_
    have h1 := (hasSum_T hc hF ⟨hx.1.le, hx.2.le⟩).mul_right (w x)
    simp only [mul_assoc] at h1
    exact h1.tsum_eq.symm
  rw [e]
  simpa only [weightIntegral, integral_const_mul] using h

theorem natDegree_T_le (m : ℕ) : (Chebyshev.T ℝ (m : ℤ)).natDegree ≤ m := by
  rw [Chebyshev.natDegree_T]; simp

theorem weight1_T (m : ℕ) : weightIntegral (Set.Ioo (-1) 1) chebW1 (Chebyshev.T ℝ m) = if m = 0 then Real.pi else 0 := by
  have h := cheb1_exact (n := m + 1) (by omega) (Chebyshev.T ℝ m) ((natDegree_T_le m).trans (by omega))
  rw [one_mul] at h
  rw [← h, show quad _ _ = _ from quad1_T (n := m + 1) (by omega) m]
  by_cases hm : m = 0
  · subst hm; simp
  · rw [if_neg hm, if_neg fun hd => ?_]
    have := Nat.le_of_dvd (by omega) hd
    omega

theorem int_dvd_small {q x : ℤ} (h1 : x < q) (h2 : -q < x) : q ∣ x ↔ x = 0 := by
  refine ⟨fun h => Int.eq_zero_of_abs_lt_dvd h (abs_lt.2 ⟨h2, h1⟩), fun h => h ▸ dvd_zero _⟩

theorem weight2_T (m : ℕ) : weightIntegral (Set.Ioo (-1) 1) chebW2 (Chebyshev.T ℝ m) = if m = 0 then Real.pi / 2 else if m = 2 then -(Real.pi / 4) else 0 := by
  have h := cheb2_exact (n := m + 2) (by omega) (Chebyshev.T ℝ m) ((natDegree_T_le m).trans (by omega))
  rw [one_mul] at h
  rw [← h, show quad _ _ = _ from quad2_T (m + 2) m]
  have h1 : ((2 * (m + 2 + 1 : ℕ) : ℤ) ∣ m) ↔ m = 0 := by
    rw [int_dvd_small (by push_cast; omega) (by push_cast; omega)]; omega
  have h2 : ¬ ((2 * (m + 2 + 1 : ℕ) : ℤ) ∣ (m : ℤ) + 2) := by
    rw [int_dvd_small (by push_cast; omega) (by push_cast; omega)]; omega
  have h3 : ((2 * (m + 2 + 1 : ℕ) : ℤ) ∣ (m : ℤ) - 2) ↔ m = 2 := by
    rw [int_dvd_small (by push_cast; omega) (by push_cast; omega)]; omega
  simp only [h1, h2, h3, if_false]
  by_cases e0 : m = 0
  · subst e0; simp
  · by_cases e2 : m = 2
    · subst e2; simp
    · simp [e0, e2]

/-! ### the two errors -/

variable (hc : Summable fun m => |c m|) (hF : ∀ x ∈ Set.Icc (-1 : ℝ) 1, F x = ∑' m : ℕ, c m * (Chebyshev.T ℝ m).eval x)
include hc hF

theorem integral1_series : ∫ x in Set.Ioo (-1 : ℝ) 1, F x * chebW1 x = Real.pi * c 0 := by
  have h := hasSum_weight (w := chebW1) (fun x _ => by unfold chebW1; positivity) integrableOn_cheb1 hc hF
  simp only [weight1_T] at h
  have h2 := hasSum_single (f := fun m : ℕ => c m * if m = 0 then Real.pi else 0) 0 fun m hm => by simp [hm]
  rw [h.unique h2]; simp [mul_comm]

theorem quad1_series {n : ℕ} (hn : 0 < n) : HasSum (fun k : ℕ => (-1) ^ k * Real.pi * c (2 * n * k)) (quad (pairs1 n) F) := by
  have h := hasSum_quad hc hF (L := pairs1 n) fun p hp => ⟨(nodes1 hn p hp).1.le, (nodes1 hn p hp).2.le⟩
  simp only [quad1_T hn] at h
  have hinj : Function.Injective fun k : ℕ => 2 * n * k := fun x y hxy => Nat.eq_of_mul_eq_mul_left (by omega) hxy
  rw [← hinj.hasSum_iff] at h
  · refine h.congr_fun' fun k => ?_
    simp only [Function.comp_apply]
    rw [if_pos (dvd_mul_right _ _), Nat.mul_div_cancel_left _ (by omega)]; ring
  · intro m hm
    rw [if_neg, mul_zero]
    rintro ⟨k, rfl⟩
    exact hm ⟨k, rfl⟩

theorem integral2_series : ∫ x in Set.Ioo (-1 : ℝ) 1, F x * chebW2 x = Real.pi * (c 0 / 2 - c 2 / 4) := by
  have h := hasSum_weight (w := chebW2) (fun x _ => by unfold chebW2; positivity) integrableOn_cheb2 hc hF
  simp only [weight2_T] at h
  have h2 := hasSum_sum_of_ne_finset_zero (L := .unconditional ℕ) (f := fun m : ℕ => c m * if m = 0 then Real.pi / 2 else if m = 2 then -(Real.pi / 4) else 0) (s := {0, 2}) fun m hm => by
    simp only [Finset.mem_insert, Finset.mem_singleton, not_or] at hm
    simp [hm.1, hm.2]
  rw [h.unique h2]; simp; ring

omit hF in
theorem hasSum_pick {q : ℕ → Prop} [DecidablePred q] {g : ℕ → ℕ} (hg : Function.Injective g) (hq : ∀ m, q m ↔ m ∈ Set.range g) :
    ∃ S, HasSum (fun m => c m * if q m then Real.pi else 0) S ∧ HasSum (fun k => Real.pi * c (g k)) S := by
  have hs : Summable fun m => c m * if q m then Real.pi else 0 := by
    refine Summable.of_norm_bounded (hc.mul_right Real.pi) fun m => ?_
    rw [Real.norm_eq_abs, abs_mul]
    refine mul_le_mul_of_nonneg_left ?_ (abs_nonneg _)
    split_ifs <;> simp [abs_of_pos Real.pi_pos, Real.pi_pos.le]
  refine ⟨_, hs.hasSum, ?_⟩
  have h := hs.hasSum
  rw [← hg.hasSum_iff] at h
  · refine h.congr_fun' fun k => ?_
    simp only [Function.comp_apply]
    rw [if_pos ((hq _).2 ⟨k, rfl⟩), mul_comm]
  · intro m hm
    rw [if_neg (mt (hq m).1 hm), mul_zero]

theorem quad2_series {n : ℕ} (hn : 0 < n) : HasSum (fun k : ℕ => Real.pi / 4 * (2 * c (2 * (n + 1) * (k + 1)) - c (2 * (n + 1) * (k + 1) - 2) - c (2 * (n + 1) * (k + 1) + 2)))
    (quad (pairs2 n) F - Real.pi * (c 0 / 2 - c 2 / 4)) := by
  have h := hasSum_quad hc hF (L := pairs2 n) fun p hp => ⟨(nodes2 hn p hp).1.le, (nodes2 hn p hp).2.le⟩
  simp only [quad2_T] at h
  have hmul : ∀ {x y : ℕ}, 2 * (n + 1) * x = 2 * (n + 1) * y → x = y := fun hxy => Nat.eq_of_mul_eq_mul_left (by omega) hxy
  have hpos : ∀ k, 2 ≤ 2 * (n + 1) * (k + 1) := fun k => by nlinarith [Nat.zero_le k, Nat.zero_le (n * k)]
  obtain ⟨A, hA, hA'⟩ := hasSum_pick hc (q := fun m : ℕ => (2 * (n + 1 : ℕ) : ℤ) ∣ m) (g := fun k => 2 * (n + 1) * k) (fun x y hxy => hmul hxy) fun m => by
    constructor
    · rintro h
      obtain ⟨k, hk⟩ : 2 * (n + 1) ∣ m := by exact_mod_cast h
      exact ⟨k, hk.symm⟩
    · rintro ⟨k, rfl⟩; push_cast; exact dvd_mul_right _ _
  obtain ⟨B, hB, hB'⟩ := hasSum_pick hc (q := fun m : ℕ => (2 * (n + 1 : ℕ) : ℤ) ∣ m + 2) (g := fun k => 2 * (n + 1) * (k + 1) - 2)
    (fun x y hxy => by
      have h1 := hpos x; have h2 := hpos y
      have := hmul (x := x + 1) (y := y + 1) (by simp only at hxy; omega)
      omega) fun m => by
    constructor
    · rintro h
      obtain ⟨k, hk⟩ : 2 * (n + 1) ∣ m + 2 := by exact_mod_cast h
      obtain ⟨j, rfl⟩ : ∃ j, k = j + 1 := ⟨k - 1, by rcases k with _ | k <;> simp at hk ⊢⟩
      exact ⟨j, by simp only; omega⟩
    · rintro ⟨k, rfl⟩
      have : ((2 * (n + 1) * (k + 1) - 2 : ℕ) : ℤ) + 2 = 2 * (n + 1 : ℕ) * (k + 1) := by
        rw [Nat.cast_sub (hpos k)]; push_cast; ring
      rw [this]; exact dvd_mul_right _ _
  obtain ⟨D, hD, hD'⟩ := hasSum_pick hc (q := fun m : ℕ => (2 * (n + 1 : ℕ) : ℤ) ∣ m - 2) (g := fun k => 2 * (n + 1) * k + 2)
    (fun x y hxy => hmul (by simpa using hxy)) fun m => by
    constructor
    · rintro h
      by_cases hm : 2 ≤ m
      · obtain ⟨k, hk⟩ : 2 * (n + 1) ∣ m - 2 := by
          have : ((m - 2 : ℕ) : ℤ) = m - 2 := by push_cast [hm]; ring
          rw [← this] at h; exact_mod_cast h
        exact ⟨k, by simp only; omega⟩
      · rw [int_dvd_small (by push_cast; omega) (by push_cast; omega)] at h; omega
    · rintro ⟨k, rfl⟩
      push_cast; rw [add_sub_cancel_right]; exact dvd_mul_right _ _
  have hsum : quad (pairs2 n) F = A / 2 - B / 4 - D / 4 := by
    refine h.unique ((((hA.div_const 2).sub (hB.div_const 4)).sub (hD.div_const 4)).congr_fun' fun m => ?_)
    ring
  rw [← hasSum_nat_add_iff' 1] at hA' hD'
  have hfin := ((hA'.div_const 2).sub (hB'.div_const 4)).sub (hD'.div_const 4)
  simp only [Finset.range_one, Finset.sum_singleton, mul_zero, zero_add] at hfin
  have e : quad (pairs2 n) F - Real.pi * (c 0 / 2 - c 2 / 4) = (A - Real.pi * c 0) / 2 - B / 4 - (D - Real.pi * c 2) / 4 := by rw [hsum]; ring
  rw [e]
  refine hfin.congr_fun' fun k => ?_
  ring

end GaussQuad
