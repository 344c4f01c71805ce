import Verif.Proofs.GaussRemainder
import Verif.Spec.Smooth
import Verif.Proofs.Chebyshev
import Verif.Proofs.OrthogonalJacobi
import Verif.Proofs.GolubRules
import Verif.Proofs.LegendreGauss
import Mathlib.Analysis.Calculus.IteratedDeriv.Lemmas

/-! Remainders of Gauss rules: the constants of the individual weight functions, and other intervals. -/

namespace GaussQuad
open Polynomial Spec MeasureTheory

theorem Spec.SmoothOn.derivs {g : ℝ → ℝ} {N : ℕ} {K : ℝ} {S : Set ℝ} (h : SmoothOn g N K S) (hS : IsOpen S) : Derivs (fun k => iteratedDeriv k g) N S := fun k hk x hx => by
  have h1 := h.cont.differentiableOn_iteratedDerivWithin (m := k) (by exact_mod_cast hk) hS.uniqueDiffOn x hx
  have h2 : DifferentiableAt ℝ (iteratedDerivWithin k g S) x := h1.differentiableAt (hS.mem_nhds hx)
  have h3 : iteratedDerivWithin k g S =ᶠ[nhds x] iteratedDeriv k g :=
    Filter.eventuallyEq_of_mem (hS.mem_nhds hx) (iteratedDerivWithin_of_isOpen hS)
  have h4 : DifferentiableAt ℝ (iteratedDeriv k g) x := h3.differentiableAt_iff.1 h2
  have h5 := h4.hasDerivAt
  rw [← iteratedDeriv_succ] at h5
  exact h5

/-- change of variables to `(-1, 1)` -/
theorem interval_transport {a b : ℝ} (hab : a ≠ b) (f w : ℝ → ℝ) : ∫ t in a..b, f t * w ((2 * t - a - b) / (b - a)) =
    (b - a) / 2 * ∫ x in Set.Ioo (-1) 1, f ((b - a) / 2 * x + (a + b) / 2) * w x := by
  rw [setIntegral_Ioo_eq_interval (by norm_num)]
  have h3 := intervalIntegral.smul_integral_comp_mul_add (a := -1) (b := 1)
    (fun t => f t * w ((2 * t - a - b) / (b - a))) ((b - a) / 2) ((a + b) / 2)
  have e1 : (b - a) / 2 * -1 + (a + b) / 2 = a := by ring
  have e2 : (b - a) / 2 * 1 + (a + b) / 2 = b := by ring
  rw [e1, e2, smul_eq_mul] at h3
  rw [← h3]
  have h4 : ∀ x : ℝ, (2 * ((b - a) / 2 * x + (a + b) / 2) - a - b) / (b - a) = x := by
    intro x
    have : b - a ≠ 0 := sub_ne_zero.2 (Ne.symm hab)
    field_simp; ring
  simp only [h4]

theorem affine_mem {a b x : ℝ} (hab : a ≠ b) (hx : x ∈ Set.Ioo (-1 : ℝ) 1) : (b - a) / 2 * x + (a + b) / 2 ∈ Set.uIoo a b := by
  rcases lt_or_gt_of_ne hab with h | h
  · rw [Set.uIoo_of_lt h]; constructor <;> nlinarith [hx.1, hx.2]
  · rw [Set.uIoo_of_gt h]; constructor <;> nlinarith [hx.1, hx.2]

theorem derivs_affine {F : ℕ → ℝ → ℝ} {N : ℕ} {a b : ℝ} (hab : a ≠ b) (hF : Derivs F N (Set.uIoo a b)) :
    Derivs (fun k x => ((b - a) / 2) ^ k * F k ((b - a) / 2 * x + (a + b) / 2)) N (Set.Ioo (-1) 1) := fun k hk x hx => by
  have h1 := hF k hk _ (affine_mem hab hx)
  have h2 : HasDerivAt (fun x : ℝ => (b - a) / 2 * x + (a + b) / 2) ((b - a) / 2) x := by
    simpa using ((hasDerivAt_id x).const_mul ((b - a) / 2)).add_const ((a + b) / 2)
  have h3 := (h1.comp x h2).const_mul (((b - a) / 2) ^ k)
  refine h3.congr_deriv ?_
  dsimp only
  rw [pow_succ]; ring

theorem interval_integrable {w : ℝ → ℝ} {a b : ℝ} (hab : a ≠ b) {g : ℝ → ℝ}
    (h : IntegrableOn (fun x => g ((b - a) / 2 * x + (a + b) / 2) * w x) (Set.Ioo (-1) 1)) :
    IntervalIntegrable (fun t => g t * w ((2 * t - a - b) / (b - a))) volume a b := by
  rw [← intervalIntegrable_iff_integrableOn_Ioo_of_le (by norm_num)] at h
  have hne : b - a ≠ 0 := sub_ne_zero.2 (Ne.symm hab)
  have h2 := (IntervalIntegrable.comp_mul_left h (c := 2 / (b - a))).comp_add_right (-((a + b) / 2))
  have e1 : -1 / (2 / (b - a)) - -((a + b) / 2) = a := by field_simp; ring
  have e2 : 1 / (2 / (b - a)) - -((a + b) / 2) = b := by field_simp; ring
  rw [e1, e2] at h2
  refine h2.congr fun t _ => ?_
  rw [show 2 / (b - a) * (t + -((a + b) / 2)) = (2 * t - a - b) / (b - a) by field_simp; ring,
    show (b - a) / 2 * ((2 * t - a - b) / (b - a)) + (a + b) / 2 = t by field_simp; ring]

/-- the remainder on an arbitrary interval -/
theorem interval_remainder {L : List (ℝ × ℝ)} {w : ℝ → ℝ} (hL : 0 < L.length) {c : ℝ} (hc : 0 < c)
    (hex : ExactUpTo L (2 * L.length - 1) (Set.Ioo (-1) 1) w c) (hpos : PosDef (Set.Ioo (-1) 1) w) (hw : ∀ x ∈ Set.Ioo (-1 : ℝ) 1, 0 ≤ w x)
    (hint : ∀ p : ℝ[X], IntegrableOn (fun x => p.eval x * w x) (Set.Ioo (-1) 1)) {a b : ℝ} (hab : a ≠ b) {g : ℝ → ℝ} {K : ℝ}
    (hg : SmoothOn g (2 * L.length) K (Set.uIoo a b)) :
    IntervalIntegrable (fun t => g t * w ((2 * t - a - b) / (b - a))) volume a b ∧
    |(b - a) / 2 * quad L (fun x => g ((b - a) / 2 * x + (a + b) / 2)) - c * ∫ t in a..b, g t * w ((2 * t - a - b) / (b - a))| ≤
      c * (K * (|b - a| / 2) ^ (2 * L.length + 1) / (2 * L.length).factorial * weightIntegral (Set.Ioo (-1) 1) w ((Lagrange.nodal (nodeSet L) id) ^ 2)) := by
  have hnode : ∀ q ∈ L, q.1 ∈ Set.Ioo (-1 : ℝ) 1 := fun q hq =>
    ⟨gauss_nodes_gt hc hex hpos (fun x hx => hx.1.le) q hq, gauss_nodes_lt hc hex hpos (fun x hx => hx.2.le) q hq⟩
  have h1 := gauss_remainder Set.ordConnected_Ioo measurableSet_Ioo hL hc hex (gauss_nodes_nodup hc hex hpos) hnode hw hint
    (derivs_affine hab (hg.derivs isOpen_Ioo)) (K := (|b - a| / 2) ^ (2 * L.length) * K) (fun x hx => by
      rw [abs_mul, abs_pow, abs_div, abs_two]
      exact mul_le_mul_of_nonneg_left (hg.bound _ (affine_mem hab hx)) (by positivity))
  simp only [pow_zero, one_mul, iteratedDeriv_zero] at h1
  refine ⟨interval_integrable hab h1.1, ?_⟩
  rw [interval_transport hab, show ∀ A B : ℝ, (b - a) / 2 * A - c * ((b - a) / 2 * B) = (b - a) / 2 * (A - c * B) by intros; ring, abs_mul, abs_div, abs_two]
  refine (mul_le_mul_of_nonneg_left h1.2 (by positivity)).trans (le_of_eq ?_)
  ring

/-! ### the constants -/

theorem hermite_norm {L : List (ℝ × ℝ)} (hL : 0 < L.length) {c : ℝ} (hc : 0 < c) (hex : ExactUpTo L (2 * L.length - 1) Set.univ hermW c) :
    weightIntegral Set.univ hermW ((Lagrange.nodal (nodeSet L) id) ^ 2) = Real.sqrt Real.pi * L.length.factorial / 2 ^ L.length := by
  rw [nodal_norm hL hc hex posDef_hermite integrable_hermite hermite_orthogonal, hermite_mass]
  generalize L.length = n
  rw [mul_div_assoc]
  congr 1
  induction n with
  | zero => simp
  | succ n ih => rw [Finset.prod_range_succ, ih, hermB_sq, Nat.factorial_succ, pow_succ]; push_cast; field_simp; ring

theorem laguerre_norm {α : ℝ} (hα : -1 < α) {L : List (ℝ × ℝ)} (hL : 0 < L.length) {c : ℝ} (hc : 0 < c) (hex : ExactUpTo L (2 * L.length - 1) (Set.Ioi 0) (lagW α) c) :
    weightIntegral (Set.Ioi 0) (lagW α) ((Lagrange.nodal (nodeSet L) id) ^ 2) = L.length.factorial * Real.Gamma (L.length + α + 1) := by
  rw [nodal_norm hL hc hex (posDef_laguerre hα) (integrable_laguerre hα) (laguerre_orthogonal hα), laguerre_mass hα]
  generalize L.length = n
  induction n with
  | zero => simp
  | succ n ih =>
    have h0 : (n : ℝ) + α + 1 ≠ 0 := by have : (0 : ℝ) ≤ n := Nat.cast_nonneg n; linarith
    rw [Finset.prod_range_succ, ← mul_assoc, ih, lagB_sq hα, Nat.factorial_succ,
      show ((n + 1 : ℕ) : ℝ) + α + 1 = (n + α + 1) + 1 by push_cast; ring, Real.Gamma_add_one h0]
    push_cast; ring

theorem jacobi_norm {α β : ℝ} (hα : -1 < α) (hβ : -1 < β) (hs : α + β ≠ -1) {L : List (ℝ × ℝ)} (hL : 0 < L.length) {c : ℝ} (hc : 0 < c)
    (hex : ExactUpTo L (2 * L.length - 1) (Set.Ioo (-1) 1) (jacW α β) c) :
    weightIntegral (Set.Ioo (-1) 1) (jacW α β) ((Lagrange.nodal (nodeSet L) id) ^ 2) = jacNorm L.length α β := by
  rw [nodal_norm hL hc hex (posDef_jacobi hα hβ) (integrable_jacobi hα hβ) (jacobi_orthogonal hα hβ hs), jacobi_mass hα hβ]
  generalize L.length = n
  have hs' : α + β + 1 ≠ 0 := fun h => hs (by linarith)
  induction n with
  | zero =>
    unfold jacNorm
    simp only [Finset.range_zero, Finset.prod_empty, mul_one, Nat.cast_zero, mul_zero, zero_add, Nat.factorial_zero, Nat.cast_one]
    rw [show α + β + 2 = (α + β + 1) + 1 by ring, Real.Gamma_add_one hs']
    have hG : Real.Gamma (α + β + 1) ≠ 0 := Real.Gamma_ne_zero fun m hm => by
      rcases Nat.eq_zero_or_pos m with rfl | h
      · exact hs' (by simpa using hm)
      · have : (1 : ℝ) ≤ m := by exact_mod_cast h
        linarith
    field_simp
  | succ n ih =>
    have hn : (0 : ℝ) ≤ n := Nat.cast_nonneg n
    have hG : ∀ k : ℕ, Real.Gamma ((k : ℝ) + α + β + 1) ≠ 0 := fun k => Real.Gamma_ne_zero fun m hm => by
      rcases Nat.eq_zero_or_pos m with rfl | h
      · rcases Nat.eq_zero_or_pos k with rfl | h'
        · exact hs' (by simpa using hm)
        · have : (1 : ℝ) ≤ k := by exact_mod_cast h'
          simp at hm; linarith
      · have : (1 : ℝ) ≤ m := by exact_mod_cast h
        have : (0 : ℝ) ≤ k := Nat.cast_nonneg k
        linarith
    have hne : ∀ k : ℕ, (k : ℝ) + α + β + 1 ≠ 0 := fun k h => by
      rcases Nat.eq_zero_or_pos k with rfl | h'
      · exact hs' (by simpa using h)
      · have : (1 : ℝ) ≤ k := by exact_mod_cast h'
        linarith
    have n1 := hne n
    have n2 := hne (2 * n)
    have n3 := hne (2 * n + 1)
    have n4 : 2 * (n : ℝ) + α + β + 3 ≠ 0 := by linarith
    have n5 : (n : ℝ) + α + 1 ≠ 0 := by linarith
    have n6 : (n : ℝ) + β + 1 ≠ 0 := by linarith
    have g2 := hG (2 * n)
    push_cast at n2 n3 g2
    have n3' : 2 * (n : ℝ) + α + β + 2 ≠ 0 := fun h => n3 (by linarith)
    rw [Finset.prod_range_succ, ← mul_assoc, ih, jacB_sq hα hβ hs]
    unfold jacNorm
    rw [Nat.factorial_succ]
    push_cast
    rw [show 2 * ((n : ℝ) + 1) + α + β + 1 = (2 * n + α + β + 1) + 1 + 1 by ring, Real.Gamma_add_one (s := 2 * (n : ℝ) + α + β + 1 + 1) (by intro h; apply n3'; linarith),
      Real.Gamma_add_one n2, show (n : ℝ) + 1 + α + 1 = (n + α + 1) + 1 by ring, Real.Gamma_add_one n5,
      show (n : ℝ) + 1 + β + 1 = (n + β + 1) + 1 by ring, Real.Gamma_add_one n6,
      show (n : ℝ) + 1 + α + β + 1 = (n + α + β + 1) + 1 by ring, Real.Gamma_add_one n1]
    have e : (2 : ℝ) ^ (2 * (n : ℝ) + α + β + 1 + 1 + 1) = 2 ^ (2 * (n : ℝ) + α + β + 1) * 4 := by
      rw [Real.rpow_add_one (by norm_num), Real.rpow_add_one (by norm_num)]; ring
    rw [e]
    have n7 : 2 * (n : ℝ) + α + β + 1 + 1 ≠ 0 := fun h => n3' (by linarith)
    have n8 : 2 * (n : ℝ) + α + β + 1 + 1 + 1 ≠ 0 := fun h => n4 (by linarith)
    have n9 : 2 * ((n : ℝ) + 1) + α + β ≠ 0 := fun h => n3' (by linarith)
    have n10 : 2 * ((n : ℝ) + 1) + α + β - 1 ≠ 0 := fun h => n2 (by linarith)
    rw [show 2 * ((n : ℝ) + 1) + α + β - 1 = 2 * n + α + β + 1 by ring, show 2 * ((n : ℝ) + 1) + α + β = 2 * n + α + β + 1 + 1 by ring]
    generalize 2 * (n : ℝ) + α + β + 1 = z at *
    field_simp
    ring

theorem legendre_norm {L : List (ℝ × ℝ)} (hL : 0 < L.length) {c : ℝ} (hc : 0 < c) (hex : ExactUpTo L (2 * L.length - 1) (Set.Ioo (-1) 1) (fun _ => 1) c) :
    weightIntegral (Set.Ioo (-1) 1) (fun _ => 1) ((Lagrange.nodal (nodeSet L) id) ^ 2) =
      2 ^ (2 * L.length + 1) * (L.length.factorial : ℝ) ^ 4 / ((2 * L.length + 1) * ((2 * L.length).factorial : ℝ) ^ 2) := by
  rw [← jacW_zero] at hex ⊢
  rw [nodal_norm hL hc hex (posDef_jacobi (by norm_num) (by norm_num)) (integrable_jacobi (by norm_num) (by norm_num))
    (jacobi_orthogonal (by norm_num) (by norm_num) (by norm_num)), jacW_zero]
  have hm : ∫ x in Set.Ioo (-1 : ℝ) 1, (1 : ℝ) = 2 := by simp; norm_num
  rw [hm]
  generalize L.length = n
  induction n with
  | zero => simp
  | succ n ih =>
    rw [Finset.prod_range_succ, ← mul_assoc, ih, jacB_sq (by norm_num) (by norm_num) (by norm_num)]
    rw [show 2 * (n + 1) = 2 * n + 1 + 1 by ring, Nat.factorial_succ, Nat.factorial_succ (2 * n + 1), Nat.factorial_succ (2 * n)]
    push_cast
    have h1 : (2 * (n : ℝ) + 1) ≠ 0 := by positivity
    have h2 : (2 * (n : ℝ) + 1 + 1) ≠ 0 := by positivity
    have h3 : (2 * ((n : ℝ) + 1) + 1) ≠ 0 := by positivity
    have h4 : ((n : ℝ) + 1) ≠ 0 := by positivity
    have h5 : ((2 * n).factorial : ℝ) ≠ 0 := by positivity
    rw [show 2 * ((n : ℝ) + 1) + 0 + 0 - 1 = 2 * n + 1 by ring, show 2 * ((n : ℝ) + 1) + 0 + 0 + 1 = 2 * (n + 1) + 1 by ring]
    simp only [add_zero]
    field_simp
    ring

theorem cheb2_norm {L : List (ℝ × ℝ)} (hL : 0 < L.length) {c : ℝ} (hc : 0 < c) (hex : ExactUpTo L (2 * L.length - 1) (Set.Ioo (-1) 1) chebW2 c) :
    weightIntegral (Set.Ioo (-1) 1) chebW2 ((Lagrange.nodal (nodeSet L) id) ^ 2) = Real.pi / 2 ^ (2 * L.length + 1) := by
  have hw : ∀ x ∈ Set.Ioo (-1 : ℝ) 1, jacW (1 / 2) (1 / 2) x = chebW2 x := by
    intro x hx
    rw [jacW, ← Real.mul_rpow (by linarith [hx.2]) (by linarith [hx.1]), chebW2, Real.sqrt_eq_rpow]
    congr 1; ring
  have hwi : ∀ p : ℝ[X], weightIntegral (Set.Ioo (-1) 1) (jacW (1 / 2) (1 / 2)) p = weightIntegral (Set.Ioo (-1) 1) chebW2 p := fun p => by
    unfold weightIntegral
    exact setIntegral_congr_fun measurableSet_Ioo fun x hx => by simp only [hw x hx]
  have hex' : ExactUpTo L (2 * L.length - 1) (Set.Ioo (-1) 1) (jacW (1 / 2) (1 / 2)) c := fun p hp => by rw [hex p hp, hwi]
  have hm : ∫ x in Set.Ioo (-1 : ℝ) 1, jacW (1 / 2) (1 / 2) x = Real.pi / 2 := by
    rw [jacobi_mass (by norm_num) (by norm_num), show (1 / 2 : ℝ) + 1 / 2 + 1 = 2 by norm_num, show (1 / 2 : ℝ) + 1 / 2 + 2 = 2 + 1 by norm_num,
      Real.Gamma_add_one (s := 2) (by norm_num), Real.Gamma_two, Real.Gamma_add_one (by norm_num), Real.Gamma_one_half_eq]
    have := Real.mul_self_sqrt Real.pi_pos.le
    norm_num
    linarith
  rw [← hwi, nodal_norm hL hc hex' (posDef_jacobi (by norm_num) (by norm_num)) (integrable_jacobi (by norm_num) (by norm_num))
    (jacobi_orthogonal (by norm_num) (by norm_num) (by norm_num)), hm]
  generalize L.length = n
  induction n with
  | zero => simp
  | succ n ih =>
    rw [Finset.prod_range_succ, ← mul_assoc, ih, jacB_sq (by norm_num) (by norm_num) (by norm_num)]
    have h1 : (2 * ((n : ℝ) + 1) + 1 / 2 + 1 / 2) ≠ 0 := by positivity
    have h2 : (2 * ((n : ℝ) + 1) + 1 / 2 + 1 / 2 + 1) ≠ 0 := by positivity
    have h3 : (2 * ((n : ℝ) + 1) + 1 / 2 + 1 / 2 - 1) ≠ 0 := by ring_nf; positivity
    rw [show 2 * (n + 1) + 1 = 2 * n + 1 + 2 by ring, pow_add (2 : ℝ) (2 * n + 1) 2]
    have : 4 * ((n : ℝ) + 1) * (n + 1 + 1 / 2) * (n + 1 + 1 / 2) * (n + 1 + 1 / 2 + 1 / 2) /
        ((2 * (n + 1) + 1 / 2 + 1 / 2) ^ 2 * ((2 * (n + 1) + 1 / 2 + 1 / 2 + 1) * (2 * (n + 1) + 1 / 2 + 1 / 2 - 1))) = 1 / 4 := by
      rw [div_eq_div_iff (by positivity) (by norm_num)]; ring
    rw [this]
    field_simp
    norm_num

/-- off-diagonal entries for the first kind -/
noncomputable def cheb1B (k : ℕ) : ℝ := if k = 0 then Real.sqrt (1 / 2) else 1 / 2

theorem cheb1_monic : ∀ m : ℕ, monicSeq (fun _ => 0) cheb1B (m + 1) = C ((1 / 2) ^ m) * Chebyshev.T ℝ (m + 1)
  | 0 => by simp [monicSeq]
  | 1 => by
    have h2 : (Chebyshev.T ℝ ((1 : ℕ) + 1)) = 2 * X * X - 1 := by
      have := Chebyshev.T_add_two ℝ 0
      simpa using this
    have h := monicSeq_succ (fun _ => 0) cheb1B 0
    rw [h2]
    rw [show monicSeq (fun _ => 0) cheb1B (1 + 1) = monicSeq (fun _ => 0) cheb1B (0 + 2) from rfl]
    have e1 : monicSeq (fun _ => 0) cheb1B (0 + 1) = X := by simp [monicSeq]
    have e0 : monicSeq (fun _ => 0) cheb1B 0 = 1 := rfl
    rw [e1, e0] at h
    have e2 : cheb1B 0 ^ 2 = 1 / 2 := by rw [cheb1B, if_pos rfl, Real.sq_sqrt (by norm_num)]
    rw [e2] at h
    apply eq_of_sub_eq_zero
    have hC : (C (1 / 2 : ℝ) : ℝ[X]) * 2 = 1 := by rw [← C_ofNat, ← C_mul]; norm_num
    rw [C_0] at h
    rw [pow_one]
    linear_combination -h - X * X * hC
  | m + 2 => by
    have h := monicSeq_succ (fun _ => 0) cheb1B (m + 1)
    have h2 : (Chebyshev.T ℝ (((m + 2 : ℕ) : ℤ) + 1)) = 2 * X * Chebyshev.T ℝ (((m + 1 : ℕ) : ℤ) + 1) - Chebyshev.T ℝ ((m : ℤ) + 1) := by
      have := Chebyshev.T_add_two ℝ ((m : ℤ) + 1)
      rw [show ((m + 2 : ℕ) : ℤ) + 1 = (m : ℤ) + 1 + 2 by push_cast; ring, show ((m + 1 : ℕ) : ℤ) + 1 = (m : ℤ) + 1 + 1 by push_cast; ring]
      exact this
    have hb : cheb1B (m + 1) ^ 2 = 1 / 4 := by rw [cheb1B, if_neg (by omega)]; norm_num
    rw [cheb1_monic m, hb, C_0, show m + 1 + 1 = (m + 1) + 1 from rfl, cheb1_monic (m + 1)] at h
    rw [h2, show m + 2 + 1 = m + 1 + 2 from rfl]
    have c1 : (C ((1 / 2 : ℝ) ^ (m + 2)) : ℝ[X]) * 2 = C ((1 / 2) ^ (m + 1)) := by rw [← C_ofNat, ← C_mul]; congr 1; ring
    have c2 : (C ((1 / 2 : ℝ) ^ (m + 2)) : ℝ[X]) = C (1 / 4) * C ((1 / 2) ^ m) := by rw [← C_mul]; congr 1; ring
    linear_combination -h - X * Chebyshev.T ℝ (((m + 1 : ℕ) : ℤ) + 1) * c1 + Chebyshev.T ℝ ((m : ℤ) + 1) * c2

theorem cheb1_orthogonal : ∀ m, 1 ≤ m → weightFunctional _ _ integrableOn_cheb1 (monicSeq (fun _ => 0) cheb1B m) = 0 := fun m hm => by
  obtain ⟨k, rfl⟩ : ∃ k, m = k + 1 := ⟨m - 1, by omega⟩
  rw [cheb1_monic, ← smul_eq_C_mul, map_smul, weightFunctional_apply, weightIntegral_cheb1,
    Chebyshev.integral_eval_T_real_measureT_of_ne_zero (by omega), smul_zero]

theorem cheb1_norm {L : List (ℝ × ℝ)} (hL : 0 < L.length) {c : ℝ} (hc : 0 < c) (hex : ExactUpTo L (2 * L.length - 1) (Set.Ioo (-1) 1) chebW1 c) :
    weightIntegral (Set.Ioo (-1) 1) chebW1 ((Lagrange.nodal (nodeSet L) id) ^ 2) = Real.pi / 2 ^ (2 * L.length - 1) := by
  have hm : ∫ x in Set.Ioo (-1 : ℝ) 1, chebW1 x = Real.pi := by
    have h := weightIntegral_cheb1 (Chebyshev.T ℝ 0)
    rw [Chebyshev.integral_eval_T_real_measureT_zero, weightIntegral] at h
    simpa using h
  rw [nodal_norm hL hc hex posDef_cheb1 integrableOn_cheb1 cheb1_orthogonal, hm]
  obtain ⟨n, hn⟩ : ∃ n, L.length = n + 1 := ⟨L.length - 1, by omega⟩
  rw [hn]
  clear hn
  induction n with
  | zero => simp [cheb1B]; rfl
  | succ n ih =>
    rw [Finset.prod_range_succ, ← mul_assoc, ih, cheb1B, if_neg (by omega), show 2 * (n + 1 + 1) - 1 = 2 * (n + 1) - 1 + 2 by omega, pow_add (2 : ℝ) _ 2]
    field_simp

end GaussQuad
