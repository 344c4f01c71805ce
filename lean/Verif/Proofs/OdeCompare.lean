import Mathlib.Analysis.SpecialFunctions.Sqrt
import Mathlib.Analysis.Calculus.MeanValue
import Mathlib.Analysis.Calculus.Deriv.Pow
import Mathlib.Analysis.Calculus.Deriv.Inv
import Mathlib.Analysis.Calculus.Deriv.MeanValue
import Mathlib.Tactic.FieldSimp
import Mathlib.Tactic.LinearCombination
import Mathlib.Tactic.Positivity

/-!
# Second-order linear differential equations: the Liouville transformation and an energy comparison

Used to compare the Legendre polynomials with the Bessel function `J₀`, and `J₀` with the sine.
-/

namespace GaussQuad.Ode
open Filter Topology

/-- `u ∘ T / √T'` -/
noncomputable def liou (u T T1 : ℝ → ℝ) (x : ℝ) : ℝ := u (T x) / √(T1 x)

/-- the derivative of `liou` -/
noncomputable def liou1 (u u1 T T1 T2 : ℝ → ℝ) (x : ℝ) : ℝ :=
  √(T1 x) * u1 (T x) - T2 x / (2 * (√(T1 x) * T1 x)) * u (T x)

/-- the coefficient of the transformed equation -/
noncomputable def liouQ (Q T T1 T2 T3 : ℝ → ℝ) (x : ℝ) : ℝ :=
  T1 x ^ 2 * Q (T x) + T3 x / (2 * T1 x) - 3 * T2 x ^ 2 / (4 * T1 x ^ 2)

variable {u u1 Q T T1 T2 T3 : ℝ → ℝ} {x : ℝ}

theorem liou_hasDerivAt (hu : HasDerivAt u (u1 (T x)) (T x)) (hT : HasDerivAt T (T1 x) x) (hT1 : HasDerivAt T1 (T2 x) x) (hpos : 0 < T1 x) :
    HasDerivAt (liou u T T1) (liou1 u u1 T T1 T2 x) x := by
  have hs : 0 < √(T1 x) := Real.sqrt_pos.2 hpos
  have hsq : √(T1 x) ^ 2 = T1 x := Real.sq_sqrt hpos.le
  have h := (hu.comp x hT).div (hT1.sqrt hpos.ne') hs.ne'
  refine h.congr_deriv ?_
  simp only [liou1, Function.comp]
  rw [show T1 x = √(T1 x) ^ 2 from hsq.symm, Real.sqrt_sq hs.le]
  field_simp

theorem liou1_hasDerivAt (hu : HasDerivAt u (u1 (T x)) (T x)) (hu1 : HasDerivAt u1 (-(Q (T x) * u (T x))) (T x))
    (hT : HasDerivAt T (T1 x) x) (hT1 : HasDerivAt T1 (T2 x) x) (hT2 : HasDerivAt T2 (T3 x) x) (hpos : 0 < T1 x) :
    HasDerivAt (liou1 u u1 T T1 T2) (-(liouQ Q T T1 T2 T3 x * liou u T T1 x)) x := by
  have hs : 0 < √(T1 x) := Real.sqrt_pos.2 hpos
  have hsq : √(T1 x) ^ 2 = T1 x := Real.sq_sqrt hpos.le
  have hr := hT1.sqrt hpos.ne'
  have h1 := hr.mul (hu1.comp x hT)
  have h2 := (hT2.div ((hr.mul hT1).const_mul 2) (mul_pos two_pos (mul_pos hs hpos)).ne').mul (hu.comp x hT)
  refine (h1.sub h2).congr_deriv ?_
  simp only [liou, liouQ, Function.comp, Pi.mul_apply, Pi.div_apply]
  generalize √(T1 x) = g at *
  rw [← hsq]
  field_simp
  ring

/-- The energy `D'² + q D²` of a solution of `D'' + q D = f` with decreasing `q > 0`: its root grows at most like the integral of `|f|`. -/
theorem energy_le {D D1 q q1 f φ φ1 : ℝ → ℝ} {a b : ℝ} (hab : a ≤ b)
    (hD : ∀ x ∈ Set.Icc a b, HasDerivAt D (D1 x) x) (hD1 : ∀ x ∈ Set.Icc a b, HasDerivAt D1 (-(q x * D x) + f x) x)
    (hq : ∀ x ∈ Set.Icc a b, HasDerivAt q (q1 x) x) (hq1 : ∀ x ∈ Set.Icc a b, q1 x ≤ 0) (hqp : ∀ x ∈ Set.Icc a b, 0 ≤ q x)
    (hφ : ∀ x ∈ Set.Icc a b, HasDerivAt φ (φ1 x) x) (hf : ∀ x ∈ Set.Icc a b, |f x| ≤ φ1 x) :
    √(D1 b ^ 2 + q b * D b ^ 2) ≤ √(D1 a ^ 2 + q a * D a ^ 2) + (φ b - φ a) := by
  apply le_of_forall_pos_le_add
  intro ε hε
  set E : ℝ → ℝ := fun x => D1 x ^ 2 + q x * D x ^ 2 + ε ^ 2 with hE
  have hE0 : ∀ x ∈ Set.Icc a b, 0 ≤ D1 x ^ 2 + q x * D x ^ 2 := fun x hx => by
    have := hqp x hx; positivity
  have hEp : ∀ x ∈ Set.Icc a b, 0 < E x := fun x hx => by have := hE0 x hx; simp only [hE]; positivity
  have hEd : ∀ x ∈ Set.Icc a b, HasDerivAt (fun x => √(E x) - φ x) ((2 * D1 x * f x + q1 x * D x ^ 2) / (2 * √(E x)) - φ1 x) x := by
    intro x hx
    have h := (((hD1 x hx).pow 2).add ((hq x hx).mul ((hD x hx).pow 2))).add_const (ε ^ 2)
    refine ((HasDerivAt.sqrt h (hEp x hx).ne').sub (hφ x hx)).congr_deriv ?_
    simp only [hE, Pi.pow_apply, Pi.add_apply, Pi.mul_apply]
    congr 2
    push_cast
    ring
  have hle : ∀ x ∈ Set.Icc a b, (2 * D1 x * f x + q1 x * D x ^ 2) / (2 * √(E x)) - φ1 x ≤ 0 := by
    intro x hx
    have hs : 0 < √(E x) := Real.sqrt_pos.2 (hEp x hx)
    have h1 : |D1 x| ≤ √(E x) := by
      apply Real.abs_le_sqrt
      have := hqp x hx
      simp only [hE]; nlinarith [sq_nonneg (D x), mul_nonneg this (sq_nonneg (D x)), sq_nonneg ε]
    have h2 : q1 x * D x ^ 2 ≤ 0 := mul_nonpos_of_nonpos_of_nonneg (hq1 x hx) (sq_nonneg _)
    have h3 : D1 x * f x ≤ √(E x) * φ1 x := by
      refine (le_abs_self _).trans ?_
      rw [abs_mul]
      exact mul_le_mul h1 (hf x hx) (abs_nonneg _) hs.le
    rw [sub_nonpos, div_le_iff₀ (by positivity)]
    nlinarith
  have hanti : AntitoneOn (fun x => √(E x) - φ x) (Set.Icc a b) := by
    apply antitoneOn_of_deriv_nonpos (convex_Icc a b)
    · exact fun x hx => (hEd x hx).continuousAt.continuousWithinAt
    · intro x hx
      rw [interior_Icc] at hx
      exact (hEd x (Set.Ioo_subset_Icc_self hx)).differentiableAt.differentiableWithinAt
    · intro x hx
      rw [interior_Icc] at hx
      rw [(hEd x (Set.Ioo_subset_Icc_self hx)).deriv]
      exact hle x (Set.Ioo_subset_Icc_self hx)
  have h := hanti (Set.left_mem_Icc.2 hab) (Set.right_mem_Icc.2 hab) hab
  simp only at h
  have h1 : √(D1 b ^ 2 + q b * D b ^ 2) ≤ √(E b) := Real.sqrt_le_sqrt (by simp only [hE]; nlinarith [sq_nonneg ε])
  have h2 : √(E a) ≤ √(D1 a ^ 2 + q a * D a ^ 2) + ε := by
    have h0 := hE0 a (Set.left_mem_Icc.2 hab)
    have hr := Real.sqrt_nonneg (D1 a ^ 2 + q a * D a ^ 2)
    apply Real.sqrt_le_iff.2 ⟨by positivity, ?_⟩
    have := Real.sq_sqrt h0
    simp only [hE]; nlinarith
  linarith

/-- Comparison on `(0, b]`: `U'' = -(q + r) U` and `V'' = -q V` with the same start, `|r| ≤ ρ`, `|U| ≤ m`. -/
theorem compare_zero {U U1 V V1 q q1 r : ℝ → ℝ} {b ρ m : ℝ} (hb : 0 < b)
    (hU : ∀ x ∈ Set.Ioc 0 b, HasDerivAt U (U1 x) x) (hU1 : ∀ x ∈ Set.Ioc 0 b, HasDerivAt U1 (-((q x + r x) * U x)) x)
    (hV : ∀ x ∈ Set.Ioc 0 b, HasDerivAt V (V1 x) x) (hV1 : ∀ x ∈ Set.Ioc 0 b, HasDerivAt V1 (-(q x * V x)) x)
    (hq : ∀ x ∈ Set.Ioc 0 b, HasDerivAt q (q1 x) x) (hq1 : ∀ x ∈ Set.Ioc 0 b, q1 x ≤ 0) (hqp : ∀ x ∈ Set.Ioc 0 b, 0 ≤ q x)
    (hr : ∀ x ∈ Set.Ioc 0 b, |r x| ≤ ρ) (hm : ∀ x ∈ Set.Ioc 0 b, |U x| ≤ m)
    (h0 : Tendsto (fun x => (U1 x - V1 x) ^ 2 + q x * (U x - V x) ^ 2) (𝓝[>] 0) (𝓝 0)) :
    √((U1 b - V1 b) ^ 2 + q b * (U b - V b) ^ 2) ≤ ρ * m * b := by
  have key : ∀ a ∈ Set.Ioo 0 b, √((U1 b - V1 b) ^ 2 + q b * (U b - V b) ^ 2) ≤
      √((U1 a - V1 a) ^ 2 + q a * (U a - V a) ^ 2) + (ρ * m * b - ρ * m * a) := by
    intro a ha
    have sub : ∀ x ∈ Set.Icc a b, x ∈ Set.Ioc 0 b := fun x hx => ⟨lt_of_lt_of_le ha.1 hx.1, hx.2⟩
    have := energy_le (D := fun x => U x - V x) (D1 := fun x => U1 x - V1 x) (q := q) (q1 := q1) (f := fun x => -(r x * U x))
      (φ := fun x => ρ * m * x) (φ1 := fun _ => ρ * m) ha.2.le
      (fun x hx => (hU x (sub x hx)).sub (hV x (sub x hx)))
      (fun x hx => ((hU1 x (sub x hx)).sub (hV1 x (sub x hx))).congr_deriv (by ring))
      (fun x hx => hq x (sub x hx)) (fun x hx => hq1 x (sub x hx)) (fun x hx => hqp x (sub x hx))
      (fun x hx => by simpa using (hasDerivAt_id x).const_mul (ρ * m))
      (fun x hx => by
        rw [abs_neg, abs_mul]
        exact mul_le_mul (hr x (sub x hx)) (hm x (sub x hx)) (abs_nonneg _) ((abs_nonneg _).trans (hr x (sub x hx))))
    exact this
  have ht : Tendsto (fun a => √((U1 a - V1 a) ^ 2 + q a * (U a - V a) ^ 2) + (ρ * m * b - ρ * m * a)) (𝓝[>] 0) (𝓝 (√0 + (ρ * m * b - ρ * m * 0))) := by
    apply (h0.sqrt).add
    exact (tendsto_const_nhds.sub ((continuous_const.mul continuous_id).tendsto 0)).mono_left nhdsWithin_le_nhds
  rw [Real.sqrt_zero, zero_add, mul_zero, sub_zero] at ht
  exact ge_of_tendsto ht (Filter.eventually_of_mem (Ioo_mem_nhdsGT hb) key)

end GaussQuad.Ode
