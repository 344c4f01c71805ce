import Verif.Proofs.PhaseCode
import Verif.Proofs.LegendreOde
import Verif.Proofs.BesselZeros
import Mathlib.Analysis.Analytic.IsolatedZeros
import Mathlib.Analysis.SpecialFunctions.Trigonometric.Deriv
import Mathlib.Analysis.SpecialFunctions.Sqrt
import Mathlib.Analysis.Calculus.ContDiff.Deriv

/-!
# Legendre's equation compared with Bessel's

For `n > 100` and `N = n + 1/2` the function `√(sin T/T') Pₙ(cos T)` of `α` is compared with `√α J₀(Nα)`, with `T` the
phase function of `Proofs/Phase.lean`.
-/

namespace GaussQuad.LegBes
open Filter Topology Phase LegendrePoly LegendreOde Ode

/-! ## the limit at 0 -/

theorem limit_zero {C : ℝ → ℝ} (hC : ContDiffAt ℝ 1 C 0) (h0 : C 0 = 0) (N : ℝ) :
    Tendsto (fun x => (C x / (2 * √x) + √x * deriv C x) ^ 2 + (N ^ 2 + 1 / (4 * x ^ 2)) * (√x * C x) ^ 2) (𝓝[>] 0) (𝓝 0) := by
  have hd : DifferentiableAt ℝ C 0 := hC.differentiableAt (by norm_num)
  have hc1 : ContinuousAt (dslope C 0) 0 := continuousAt_dslope_same.2 hd
  have hc2 : ContinuousAt (deriv C) 0 := by
    have h := hC.continuousAt_fderiv one_ne_zero
    have h2 : ContinuousAt (fun x => fderiv ℝ C x 1) 0 := h.clm_apply continuousAt_const
    exact h2.congr (Eventually.of_forall fun x => fderiv_apply_one_eq_deriv)
  have hlim : ContinuousAt (fun x => x * (dslope C 0 x / 2 + deriv C x) ^ 2 + N ^ 2 * x ^ 3 * dslope C 0 x ^ 2 + x * dslope C 0 x ^ 2 / 4) 0 := by
    fun_prop
  have h1 := hlim.tendsto.mono_left (nhdsWithin_le_nhds (s := Set.Ioi 0))
  simp only [zero_mul, mul_zero, ne_eq, OfNat.ofNat_ne_zero, not_false_eq_true, zero_pow, zero_div, add_zero] at h1
  refine h1.congr' ?_
  filter_upwards [self_mem_nhdsWithin] with x hx
  have hx' : (0 : ℝ) < x := hx
  have hs : 0 < √x := Real.sqrt_pos.2 hx'
  have hsq : √x ^ 2 = x := Real.sq_sqrt hx'.le
  have e : C x = x * dslope C 0 x := by
    have := sub_smul_dslope C 0 x
    simp only [sub_zero, h0, smul_eq_mul] at this
    exact this.symm
  rw [e]
  generalize dslope C 0 x = k
  generalize √x = g at *
  subst hsq
  field_simp
  ring

/-- `sin x / x` as an analytic function -/
noncomputable def sc : ℝ → ℝ := dslope Real.sin 0

theorem sc_contDiffAt : ContDiffAt ℝ 1 sc 0 := by
  have h : AnalyticAt ℝ Real.sin 0 := Real.analyticAt_sin
  obtain ⟨p, hp⟩ := h
  exact (show AnalyticAt ℝ sc 0 from ⟨_, hp.has_fpower_series_dslope_fslope⟩).contDiffAt

theorem sc_zero : sc 0 = 1 := by
  rw [sc, dslope_same, (Real.hasDerivAt_sin 0).deriv, Real.cos_zero]

theorem sin_eq_sc (x : ℝ) : Real.sin x = x * sc x := by
  have := sub_smul_dslope Real.sin 0 x
  simp only [sub_zero, Real.sin_zero, smul_eq_mul] at this
  exact this.symm

theorem P_at_one (n : ℕ) : P n 1 = 1 ∧ P (n + 1) 1 = 1 := by
  induction n with
  | zero => simp
  | succ n ih =>
    refine ⟨ih.2, ?_⟩
    have := P_rec n 1
    rw [ih.1, ih.2] at this
    have h : (n : ℝ) + 2 ≠ 0 := by positivity
    have h2 : ((n : ℝ) + 2) * (P (n + 2) 1 - 1) = 0 := by linarith
    have := (mul_eq_zero.1 h2).resolve_left h
    rw [show n + 1 + 1 = n + 2 by ring]; linarith

theorem contDiff_one {f f' : ℝ → ℝ} (h : ∀ x, HasDerivAt f (f' x) x) (hc : Continuous f') : ContDiff ℝ 1 f := by
  rw [contDiff_one_iff_deriv]
  refine ⟨fun x => (h x).differentiableAt, ?_⟩
  rwa [show deriv f = f' from funext fun x => (h x).deriv]

noncomputable def τ (y α : ℝ) : ℝ := 1 + W y * rη α y

theorem τ_contDiff (y : ℝ) : ContDiff ℝ 1 (τ y) := by
  have h := fun α => ((((ev2_xx_hasDerivAt α y H).div_const (M : ℝ)).const_mul (W y)).const_add 1)
  refine contDiff_one h ?_
  refine continuous_const.mul (Continuous.div_const (Continuous.mul ?_ (continuous_const.mul continuous_id)) _)
  exact continuous_iff_continuousAt.2 fun α => (ev2_xx_hasDerivAt α y (H.map ListPoly.der)).continuousAt

theorem T1_continuous (y : ℝ) : Continuous fun α => T1 α y := continuous_iff_continuousAt.2 fun α => (T1_hasDerivAt α y).continuousAt
theorem T2_continuous (y : ℝ) : Continuous fun α => T2 α y := continuous_iff_continuousAt.2 fun α => (T2_hasDerivAt α y).continuousAt
theorem T_contDiff (y : ℝ) : ContDiff ℝ 1 fun α => T α y := contDiff_one (fun α => T_hasDerivAt α y) (T1_continuous y)
theorem T1_contDiff (y : ℝ) : ContDiff ℝ 1 fun α => T1 α y := contDiff_one (fun α => T1_hasDerivAt α y) (T2_continuous y)

theorem T_zero (y : ℝ) : T 0 y = 0 := by simp [T]
theorem T1_at_zero (y : ℝ) : T1 0 y = τ y 0 := by
  simp only [T1, rη1, τ, rη, H1, ev2_map_odd1, xx]
  ring

theorem T1_zero_ge {y : ℝ} (y0 : 0 < y) (y1 : y ≤ 1) : 0.9999 ≤ T1 0 y := by
  have h1 : Tendsto (fun α => T1 α y) (𝓝[>] 0) (𝓝 (T1 0 y)) := ((T1_continuous y).tendsto 0).mono_left nhdsWithin_le_nhds
  refine ge_of_tendsto h1 ?_
  have : Set.Ioo (0 : ℝ) 1 ∈ 𝓝[>] 0 := Ioo_mem_nhdsGT one_pos
  filter_upwards [this] with α hα
  exact Box.T1_pos ⟨hα.1, by nlinarith [hα.1, hα.2], y0, y1⟩

/-- the transformed Legendre function divided by `√α` -/
noncomputable def A (n : ℕ) (y α : ℝ) : ℝ := √(sc (T α y) * τ y α / T1 α y) * P n (Real.cos (T α y))

theorem A_zero {n : ℕ} {y : ℝ} (y0 : 0 < y) (y1 : y ≤ 1) : A n y 0 = 1 := by
  have h := T1_zero_ge y0 y1
  rw [A, T_zero, sc_zero, one_mul, ← T1_at_zero, div_self (by linarith), Real.cos_zero, (P_at_one n).1, Real.sqrt_one, one_mul]

theorem A_contDiffAt {n : ℕ} {y : ℝ} (y0 : 0 < y) (y1 : y ≤ 1) : ContDiffAt ℝ 1 (A n y) 0 := by
  have h := T1_zero_ge y0 y1
  have hT := (T_contDiff y).contDiffAt (x := 0)
  have h1 : ContDiffAt ℝ 1 (fun α => sc (T α y)) 0 := by
    refine ContDiffAt.comp (g := sc) 0 ?_ hT
    rw [T_zero]; exact sc_contDiffAt
  have h2 : ContDiffAt ℝ 1 (fun α => sc (T α y) * τ y α / T1 α y) 0 :=
    (h1.mul (τ_contDiff y).contDiffAt).div (T1_contDiff y).contDiffAt (ne_of_gt (lt_of_lt_of_le (by norm_num) h))
  refine (h2.sqrt ?_).mul ?_
  · rw [T_zero, sc_zero, one_mul, ← T1_at_zero, div_self (by linarith)]; exact one_ne_zero
  · have hP : ContDiff ℝ 1 (P n) := contDiff_one (fun x => LegendrePoly.hasDerivAt n x) (Polynomial.derivative (Spec.legendreP n)).continuous
    exact (hP.comp (Real.contDiff_cos.comp (T_contDiff y))).contDiffAt

theorem J0_contDiff (N : ℝ) : ContDiff ℝ 1 fun α => Bessel.J0 (N * α) :=
  (contDiff_one (fun s => Bessel.J0_hasDerivAt s) Bessel.J1_continuous.neg).comp (contDiff_const.mul contDiff_id)

/-! ## the two solutions -/

noncomputable def U (n : ℕ) (y : ℝ) : ℝ → ℝ := liou (u n) (fun a => T a y) (fun a => T1 a y)
noncomputable def U1 (n : ℕ) (y : ℝ) : ℝ → ℝ := liou1 (u n) (u1 n) (fun a => T a y) (fun a => T1 a y) (fun a => T2 a y)
noncomputable def V (N α : ℝ) : ℝ := Bessel.φ (N * α) / √N
noncomputable def V1 (N α : ℝ) : ℝ := √N * Bessel.φ1 (N * α)

theorem U_eq {n : ℕ} {α y : ℝ} (h : Box α y) : U n y α = √α * A n y α := by
  have h1 := h.T1_pos
  have e : Real.sin (T α y) = α * (sc (T α y) * τ y α) := by
    rw [sin_eq_sc]
    have : T α y = α * τ y α := rfl
    rw [this]; ring
  rw [U, liou, u, A, e, Real.sqrt_mul h.pos.le, Real.sqrt_div' _ (by linarith)]
  ring

theorem V_eq {N α : ℝ} (hN : 0 < N) (h : 0 < α) : V N α = √α * Bessel.J0 (N * α) := by
  have : 0 < √N := Real.sqrt_pos.2 hN
  rw [V, Bessel.φ, Real.sqrt_mul hN.le]
  field_simp

theorem sin_T_pos {α y : ℝ} (h : Box α y) : 0 < Real.sin (T α y) := by
  have h1 := h.T_pos
  have h2 := h.T_le
  exact Real.sin_pos_of_pos_of_lt_pi h1 (by have := Real.pi_gt_three; norm_num at h2; linarith)

theorem U_hasDerivAt {n : ℕ} {α y : ℝ} (h : Box α y) : HasDerivAt (U n y) (U1 n y α) α :=
  liou_hasDerivAt (u_hasDerivAt (sin_T_pos h)) (T_hasDerivAt α y) (T1_hasDerivAt α y) (by linarith [h.T1_pos])

theorem U1_hasDerivAt {n : ℕ} {α y : ℝ} (h : Box α y) :
    HasDerivAt (U1 n y) (-(liouQ (Q n) (fun a => T a y) (fun a => T1 a y) (fun a => T2 a y) (fun a => T3 a y) α * U n y α)) α :=
  liou1_hasDerivAt (u_hasDerivAt (sin_T_pos h)) (u1_hasDerivAt (sin_T_pos h)) (T_hasDerivAt α y) (T1_hasDerivAt α y) (T2_hasDerivAt α y) (by linarith [h.T1_pos])

theorem V_hasDerivAt {N α : ℝ} (hN : 0 < N) (h : 0 < α) : HasDerivAt (V N) (V1 N α) α := by
  have hs : 0 < √N := Real.sqrt_pos.2 hN
  have hsq : √N ^ 2 = N := Real.sq_sqrt hN.le
  have h1 := (Bessel.φ_hasDerivAt (mul_pos hN h)).comp α ((hasDerivAt_id α).const_mul N)
  refine (h1.div_const (√N)).congr_deriv ?_
  rw [V1]
  generalize Bessel.φ1 (N * α) = z
  generalize √N = g at *
  subst hsq
  field_simp

theorem V1_hasDerivAt {N α : ℝ} (hN : 0 < N) (h : 0 < α) : HasDerivAt (V1 N) (-((N ^ 2 + 1 / (4 * α ^ 2)) * V N α)) α := by
  have hs : 0 < √N := Real.sqrt_pos.2 hN
  have hsq : √N ^ 2 = N := Real.sq_sqrt hN.le
  have h1 := (Bessel.φ1_hasDerivAt (mul_pos hN h)).comp α ((hasDerivAt_id α).const_mul N)
  refine (h1.const_mul (√N)).congr_deriv ?_
  rw [V, Bessel.qB]
  generalize Bessel.φ (N * α) = z
  generalize √N = g at *
  subst hsq
  field_simp

theorem limit {n : ℕ} {N y : ℝ} (hN : 0 < N) (y0 : 0 < y) (y1 : y ≤ 1) :
    Tendsto (fun x => (U1 n y x - V1 N x) ^ 2 + (N ^ 2 + 1 / (4 * x ^ 2)) * (U n y x - V N x) ^ 2) (𝓝[>] 0) (𝓝 0) := by
  set C : ℝ → ℝ := fun α => A n y α - Bessel.J0 (N * α) with hC
  have hCd : ContDiffAt ℝ 1 C 0 := (A_contDiffAt y0 y1).sub (J0_contDiff N).contDiffAt
  have hC0 : C 0 = 0 := by simp [hC, A_zero y0 y1, Bessel.J0_zero]
  refine (limit_zero hCd hC0 N).congr' ?_
  have hev : ∀ᶠ x in 𝓝 (0 : ℝ), DifferentiableAt ℝ C x := by
    have := hCd.eventually (by norm_num)
    exact this.mono fun x hx => hx.differentiableAt (by norm_num)
  filter_upwards [Ioo_mem_nhdsGT one_pos, hev.filter_mono nhdsWithin_le_nhds] with x hx hdx
  have hB : ∀ z ∈ Set.Ioo (0 : ℝ) 1, Box z y := fun z hz => ⟨hz.1, by nlinarith [hz.1, hz.2], y0, y1⟩
  have hD : ∀ z ∈ Set.Ioo (0 : ℝ) 1, U n y z - V N z = √z * C z := fun z hz => by
    rw [U_eq (hB z hz), V_eq hN hz.1, hC]; ring
  have h1 : HasDerivAt (fun z => U n y z - V N z) (U1 n y x - V1 N x) x := (U_hasDerivAt (hB x hx)).sub (V_hasDerivAt hN hx.1)
  have h2 : HasDerivAt (fun z => √z * C z) (1 / (2 * √x) * C x + √x * deriv C x) x := (Real.hasDerivAt_sqrt hx.1.ne').mul hdx.hasDerivAt
  have h3 : (fun z => U n y z - V N z) =ᶠ[𝓝 x] fun z => √z * C z := by
    filter_upwards [Ioo_mem_nhds hx.1 hx.2] with z hz using hD z hz
  have h4 := h1.unique (h2.congr_of_eventuallyEq h3)
  rw [h4, hD x hx]
  ring

/-! ## the comparison -/

theorem tau2_ok : (mul tW eta2).bound ≤ 1000000000000000000000000000 := by decide +kernel

theorem T2_small {α y : ℝ} (h : Box α y) : |T2 α y| ≤ 2 / 100000 := by
  have h1 := h.bd (h.mm h.mW h.mη2)
  have h2 : ((mul tW eta2).bound : ℝ) ≤ 1000000000000000000000000000 := by exact_mod_cast tau2_ok
  have h3 := h1.trans h2
  rw [show (M : ℝ) = 100000000000000000000000000000000 by norm_num [M]] at h3
  have h4 : |W y * rη2 α y| ≤ 1 / 100000 := by linarith
  rw [T2, abs_mul, abs_of_pos h.pos]
  have := h.α_le
  calc α * |W y * rη2 α y| ≤ 1.5812 * (1 / 100000) := by gcongr
    _ ≤ _ := by norm_num

/-- the order -/
noncomputable def NN (n : ℕ) : ℝ := n + 1 / 2
noncomputable def yy (n : ℕ) : ℝ := 41209 / (4 * NN n ^ 2)

section
variable {n : ℕ} (hn : 101 ≤ n)
include hn

theorem NN_ge : 101.5 ≤ NN n := by
  have : (101 : ℝ) ≤ n := by exact_mod_cast hn
  unfold NN; norm_num; linarith

theorem W_yy : W (yy n) = 1 / NN n ^ 2 := by
  have := NN_ge hn
  rw [W, yy]; field_simp

theorem yy_pos : 0 < yy n := by
  have := NN_ge hn
  unfold yy; positivity

theorem yy_le : yy n ≤ 1 := by
  have := NN_ge hn
  rw [yy, div_le_one (by positivity)]
  norm_num at this ⊢; nlinarith

variable {α : ℝ} (h0 : 0 < α) (h1 : α ^ 2 ≤ 5 / 2)
include h0 h1

theorem box : Box α (yy n) := ⟨h0, h1, yy_pos hn, yy_le hn⟩

theorem sqrt_T1 : 0.9999 ≤ √(T1 α (yy n)) ∧ √(T1 α (yy n)) ≤ 1.0001 := by
  have hb := box hn h0 h1
  have h2 := hb.T1_pos
  have h3 := hb.T1_le
  constructor
  · apply Real.le_sqrt_of_sq_le; norm_num at *; linarith
  · rw [Real.sqrt_le_left (by norm_num)]; norm_num at *; linarith

theorem step {m : ℝ} (hm : ∀ x ∈ Set.Ioc 0 α, |U n (yy n) x| ≤ m) :
    √((U1 n (yy n) α - V1 (NN n) α) ^ 2 + (NN n ^ 2 + 1 / (4 * α ^ 2)) * (U n (yy n) α - V (NN n) α) ^ 2) ≤ 2 / 10 ^ 15 * m * α := by
  have hN := NN_ge hn
  have hN0 : 0 < NN n := by linarith
  have hB : ∀ x ∈ Set.Ioc 0 α, Box x (yy n) := fun x hx => box hn hx.1 (by nlinarith [hx.1, hx.2])
  refine compare_zero (q := fun x => NN n ^ 2 + 1 / (4 * x ^ 2)) (q1 := fun x => -(1 / (2 * x ^ 3)))
    (r := fun x => liouQ (Q n) (fun a => T a (yy n)) (fun a => T1 a (yy n)) (fun a => T2 a (yy n)) (fun a => T3 a (yy n)) x - (NN n ^ 2 + 1 / (4 * x ^ 2)))
    h0 (fun x hx => U_hasDerivAt (hB x hx)) ?_ (fun x hx => V_hasDerivAt hN0 hx.1) (fun x hx => V1_hasDerivAt hN0 hx.1) ?_ ?_ ?_ ?_ hm
    (limit hN0 (yy_pos hn) (yy_le hn))
  · intro x hx
    refine (U1_hasDerivAt (hB x hx)).congr_deriv ?_
    ring
  · intro x hx
    have hx0 := hx.1
    have h := ((hasDerivAt_const x (1 : ℝ)).div ((hasDerivAt_pow 2 x).const_mul 4) (by positivity)).const_add (NN n ^ 2)
    refine h.congr_deriv ?_
    field_simp
    norm_num
    ring
  · intro x hx
    have hx0 := hx.1
    simp only [Left.neg_nonpos_iff]; positivity
  · intro x hx; positivity
  · intro x hx
    have := (hB x hx).residual
    rw [W_yy hn] at this
    simp only [one_div, inv_inv] at this ⊢
    have e : Q n = fun θ => NN n ^ 2 + (4 * Real.sin θ ^ 2)⁻¹ := by
      funext θ; simp [Q, NN]
    rw [e]; exact this

theorem U_le_one : |U n (yy n) α| ≤ 1.001 := by
  have hb := box hn h0 h1
  obtain ⟨hs, _⟩ := sqrt_T1 hn h0 h1
  have hsin := sin_T_pos hb
  have hP : |P n (Real.cos (T α (yy n)))| ≤ 1 := abs_P_le n (by
    have := Real.sin_sq_add_cos_sq (T α (yy n)); nlinarith)
  have h2 : √(Real.sin (T α (yy n))) ≤ 1 := Real.sqrt_le_one.2 (Real.sin_le_one _)
  rw [U, liou, u, abs_div, abs_mul, abs_of_nonneg (Real.sqrt_nonneg _), abs_of_nonneg (Real.sqrt_nonneg _), div_le_iff₀ (by linarith)]
  calc √(Real.sin (T α (yy n))) * |P n (Real.cos (T α (yy n)))| ≤ 1 * 1 := by gcongr
    _ ≤ 1.001 * 0.9999 := by norm_num
    _ ≤ _ := by gcongr

omit h1 in
theorem V_le : |V (NN n) α| ≤ 1.36 / √(NN n) := by
  have hN := NN_ge hn
  have hN0 : 0 < NN n := by linarith
  rw [V, abs_div, abs_of_nonneg (Real.sqrt_nonneg _)]
  have := Bessel.abs_φ_le (mul_pos hN0 h0)
  gcongr

omit h1 in
theorem from_energy {B : ℝ} (hE : √((U1 n (yy n) α - V1 (NN n) α) ^ 2 + (NN n ^ 2 + 1 / (4 * α ^ 2)) * (U n (yy n) α - V (NN n) α) ^ 2) ≤ B) :
    |U1 n (yy n) α - V1 (NN n) α| ≤ B ∧ |U n (yy n) α - V (NN n) α| ≤ B / NN n := by
  have hN := NN_ge hn
  have hN0 : 0 < NN n := by linarith
  generalize U1 n (yy n) α - V1 (NN n) α = d1 at *
  generalize U n (yy n) α - V (NN n) α = d at *
  have hq : 0 ≤ 1 / (4 * α ^ 2) := by positivity
  constructor
  · refine le_trans ?_ hE
    apply Real.le_sqrt_of_sq_le
    rw [sq_abs]
    have : 0 ≤ (NN n ^ 2 + 1 / (4 * α ^ 2)) * d ^ 2 := by positivity
    linarith
  · rw [le_div_iff₀ hN0]
    refine le_trans ?_ hE
    apply Real.le_sqrt_of_sq_le
    rw [mul_pow, sq_abs]
    nlinarith [sq_nonneg d1, sq_nonneg d, mul_nonneg hq (sq_nonneg d)]

theorem U_le : |U n (yy n) α| ≤ 1.3601 / √(NN n) := by
  have hN := NN_ge hn
  have hN0 : 0 < NN n := by linarith
  have hb := box hn h0 h1
  have hα := hb.α_le
  have hE := step hn h0 h1 (m := 1.001) (fun x hx => U_le_one hn hx.1 (by nlinarith [hx.1, hx.2]))
  have hE' := hE.trans (show _ ≤ (1 / 10 ^ 14 : ℝ) by
    calc 2 / 10 ^ 15 * 1.001 * α ≤ 2 / 10 ^ 15 * 1.001 * 1.5812 := by gcongr
      _ ≤ _ := by norm_num)
  have h2 := (from_energy hn h0 hE').2
  have h3 := V_le hn h0
  have hs : 1 ≤ √(NN n) := by apply Real.le_sqrt_of_sq_le; linarith
  have hsq : √(NN n) ^ 2 = NN n := Real.sq_sqrt hN0.le
  have h4 : (1 / 10 ^ 14 : ℝ) / NN n ≤ 0.0001 / √(NN n) := by
    rw [div_le_div_iff₀ hN0 (by linarith)]
    nlinarith
  have h5 : |U n (yy n) α| ≤ |U n (yy n) α - V (NN n) α| + |V (NN n) α| := by
    have := abs_add_le (U n (yy n) α - V (NN n) α) (V (NN n) α)
    rwa [sub_add_cancel] at this
  calc |U n (yy n) α| ≤ 0.0001 / √(NN n) + 1.36 / √(NN n) := by linarith
    _ = _ := by rw [← add_div]; norm_num

/-- the two solutions agree -/
theorem compare : |U1 n (yy n) α - V1 (NN n) α| ≤ 44 / 10 ^ 16 / √(NN n) ∧
    |U n (yy n) α - V (NN n) α| ≤ 44 / 10 ^ 16 / √(NN n) / NN n := by
  have hN := NN_ge hn
  have hN0 : 0 < NN n := by linarith
  have hs : 0 < √(NN n) := Real.sqrt_pos.2 hN0
  have hα := (box hn h0 h1).α_le
  have hE := step hn h0 h1 (m := 1.3601 / √(NN n)) (fun x hx => U_le hn hx.1 (by nlinarith [hx.1, hx.2]))
  refine from_energy hn h0 (hE.trans ?_)
  calc 2 / 10 ^ 15 * (1.3601 / √(NN n)) * α = (2 / 10 ^ 15 * 1.3601 * α) / √(NN n) := by ring
    _ ≤ (44 / 10 ^ 16) / √(NN n) := by
      gcongr
      calc 2 / 10 ^ 15 * 1.3601 * α ≤ 2 / 10 ^ 15 * 1.3601 * 1.5812 := by gcongr
        _ ≤ _ := by norm_num

end

end GaussQuad.LegBes
