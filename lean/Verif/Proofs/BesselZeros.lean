import Verif.Proofs.McMahon
import Mathlib.Analysis.SpecialFunctions.Trigonometric.Deriv
import Mathlib.Analysis.Calculus.MeanValue

/-!
# The zeros of `J₀` used by the code
-/

namespace GaussQuad.Bessel

theorem energy_anti : AntitoneOn (fun s => φ1 s ^ 2 + qB s * φ s ^ 2) (Set.Ioi 0) := by
  have hd : ∀ s ∈ Set.Ioi (0 : ℝ), HasDerivAt (fun s => φ1 s ^ 2 + qB s * φ s ^ 2) (-(1 / (2 * s ^ 3)) * φ s ^ 2) s := by
    intro s hs
    have h := ((φ1_hasDerivAt hs).pow 2).add ((qB_hasDerivAt hs).mul ((φ_hasDerivAt hs).pow 2))
    refine h.congr_deriv ?_
    simp only [Pi.pow_apply]
    push_cast
    ring
  apply antitoneOn_of_deriv_nonpos (convex_Ioi 0)
  · exact fun s hs => (hd s hs).continuousAt.continuousWithinAt
  · intro s hs
    rw [interior_Ioi] at hs
    exact (hd s hs).differentiableAt.differentiableWithinAt
  · intro s hs
    rw [interior_Ioi] at hs
    rw [(hd s hs).deriv]
    have : 0 < s := hs
    have h1 : 0 ≤ 1 / (2 * s ^ 3) * φ s ^ 2 := by positivity
    linarith

theorem abs_φ_le {s : ℝ} (hs : 0 < s) : |φ s| ≤ 1.36 := by
  rcases le_total s 1 with h | h
  · rw [φ, abs_mul, abs_of_nonneg (Real.sqrt_nonneg s)]
    have h1 := abs_J0_le hs.le
    have h2 : √s ≤ 1 := by rw [Real.sqrt_le_left (by norm_num)]; linarith
    calc √s * |J0 s| ≤ 1 * 1 := mul_le_mul h2 h1 (abs_nonneg _) (by norm_num)
      _ ≤ 1.36 := by norm_num
  · have h1 := energy_anti (show (1 : ℝ) ∈ Set.Ioi 0 by simp) (show s ∈ Set.Ioi 0 from hs) h
    have h2 := sq_add_sq_le (s := 1) (by norm_num)
    simp only [φ1, φ, qB, Real.sqrt_one] at h1
    have h3 : (J0 1 / (2 * 1) - 1 * J1 1) ^ 2 + (1 + 1 / (4 * 1 ^ 2)) * (1 * J0 1) ^ 2 ≤ 1.84 := by
      nlinarith [sq_nonneg (J0 1 * 0.62 + J1 1)]
    have h4 : (√s * J0 s) ^ 2 ≤ 1.84 := by
      have h5 : 0 ≤ 1 / (4 * s ^ 2) * (√s * J0 s) ^ 2 := by positivity
      nlinarith [sq_nonneg (J0 s / (2 * √s) - √s * J1 s)]
    rw [φ]
    apply abs_le_of_sq_le_sq _ (by norm_num)
    norm_num
    linarith

theorem abs_φ1_le {s : ℝ} (hs : 1 ≤ s) : |φ1 s| ≤ 1.36 := by
  have hs0 : 0 < s := by linarith
  have h1 := energy_anti (show (1 : ℝ) ∈ Set.Ioi 0 by simp) (show s ∈ Set.Ioi 0 from hs0) hs
  have h2 := sq_add_sq_le (s := 1) (by norm_num)
  simp only [φ, qB, Real.sqrt_one] at h1
  rw [show φ1 1 = J0 1 / (2 * 1) - 1 * J1 1 by rw [φ1, Real.sqrt_one]] at h1
  have h3 : (J0 1 / (2 * 1) - 1 * J1 1) ^ 2 + (1 + 1 / (4 * 1 ^ 2)) * (1 * J0 1) ^ 2 ≤ 1.84 := by
    nlinarith [sq_nonneg (J0 1 * 0.62 + J1 1)]
  have h4 : φ1 s ^ 2 ≤ 1.84 := by
    have h5 : 0 ≤ (1 + 1 / (4 * s ^ 2)) * (√s * J0 s) ^ 2 := by positivity
    linarith
  apply abs_le_of_sq_le_sq _ (by norm_num)
  norm_num
  linarith

end GaussQuad.Bessel

namespace GaussQuad.McMahon
open Bessel Ode

noncomputable def Φ : ℝ → ℝ := liou φ S S1
noncomputable def Φ1 : ℝ → ℝ := liou1 φ φ1 S S1 S2

variable {β : ℝ}

theorem S1_pos (hβ : 65 ≤ β) : 0.999 ≤ S1 β := by have := abs_le.1 (S1_close hβ); norm_num at this ⊢; linarith
theorem S1_le (hβ : 65 ≤ β) : S1 β ≤ 1.001 := by have := abs_le.1 (S1_close hβ); norm_num at this ⊢; linarith
theorem S_ge (hβ : 65 ≤ β) : 64.9 ≤ S β := by
  have := abs_le.1 (st_close hβ)
  rw [S]
  nlinarith

theorem Φ_hasDerivAt (hβ : 65 ≤ β) : HasDerivAt Φ (Φ1 β) β := by
  have h0 : 0 < β := by linarith
  have h1 := S_ge hβ
  have h2 := S1_pos hβ
  exact liou_hasDerivAt (φ_hasDerivAt (by linarith)) (S_hasDerivAt h0) (S1_hasDerivAt h0) (by linarith)

theorem Φ1_hasDerivAt (hβ : 65 ≤ β) : HasDerivAt Φ1 (-(liouQ qB S S1 S2 S3 β * Φ β)) β := by
  have h0 : 0 < β := by linarith
  have h1 := S_ge hβ
  have h2 := S1_pos hβ
  exact liou1_hasDerivAt (φ_hasDerivAt (by linarith)) (φ1_hasDerivAt (by linarith)) (S_hasDerivAt h0) (S1_hasDerivAt h0) (S2_hasDerivAt h0) (by linarith)

theorem sqrt_S1 (hβ : 65 ≤ β) : 0.999 ≤ √(S1 β) ∧ √(S1 β) ≤ 1.001 := by
  have h1 := S1_pos hβ
  have h2 := S1_le hβ
  constructor
  · rw [Real.le_sqrt' (by norm_num)]; norm_num at *; linarith
  · rw [Real.sqrt_le_left (by norm_num)]; norm_num at *; linarith

theorem abs_Φ_le (hβ : 65 ≤ β) : |Φ β| ≤ 1.37 := by
  have h1 := abs_φ_le (s := S β) (by linarith [S_ge hβ])
  obtain ⟨h2, _⟩ := sqrt_S1 hβ
  rw [Φ, liou, abs_div, abs_of_nonneg (Real.sqrt_nonneg _), div_le_iff₀ (by linarith)]
  norm_num at *
  linarith

/-- `Φ` is a trigonometric function up to `1e-22` -/
theorem trig_compare {a b : ℝ} (ha : 65 ≤ a) (hab : a ≤ b) :
    |Φ b - (Φ a * Real.cos (b - a) + Φ1 a * Real.sin (b - a))| ≤ 1 / 10 ^ 22 ∧
    |Φ1 b - (-(Φ a * Real.sin (b - a)) + Φ1 a * Real.cos (b - a))| ≤ 1 / 10 ^ 22 := by
  have hge : ∀ x ∈ Set.Icc a b, 65 ≤ x := fun x hx => ha.trans hx.1
  have hc : ∀ x : ℝ, HasDerivAt (fun x => Real.cos (x - a)) (-(Real.sin (x - a))) x := fun x => by
    have h := (Real.hasDerivAt_cos (x - a)).comp x ((hasDerivAt_id x).sub_const a)
    exact h.congr_deriv (mul_one _)
  have hs : ∀ x : ℝ, HasDerivAt (fun x => Real.sin (x - a)) (Real.cos (x - a)) x := fun x => by
    have h := (Real.hasDerivAt_sin (x - a)).comp x ((hasDerivAt_id x).sub_const a)
    exact h.congr_deriv (mul_one _)
  have key := energy_le (D := fun x => Φ x - (Φ a * Real.cos (x - a) + Φ1 a * Real.sin (x - a)))
    (D1 := fun x => Φ1 x - (-(Φ a * Real.sin (x - a)) + Φ1 a * Real.cos (x - a)))
    (q := fun _ => 1) (q1 := fun _ => 0) (f := fun x => -((liouQ qB S S1 S2 S3 x - 1) * Φ x))
    (φ := fun x => -(11 / 10 ^ 18) * (1 / x ^ 3)) (φ1 := fun x => 33 / 10 ^ 18 * (1 / x ^ 4)) hab ?_ ?_ ?_ ?_ ?_ ?_ ?_
  · have e0 : (Φ1 a - (-(Φ a * Real.sin (a - a)) + Φ1 a * Real.cos (a - a))) ^ 2 + 1 * (Φ a - (Φ a * Real.cos (a - a) + Φ1 a * Real.sin (a - a))) ^ 2 = 0 := by
      simp
    rw [e0, Real.sqrt_zero] at key
    set D := Φ b - (Φ a * Real.cos (b - a) + Φ1 a * Real.sin (b - a))
    set D1 := Φ1 b - (-(Φ a * Real.sin (b - a)) + Φ1 a * Real.cos (b - a))
    have hb0 : 0 < b := by linarith
    have ha0 : 0 < a := by linarith
    have h1 : √(D1 ^ 2 + 1 * D ^ 2) ≤ 1 / 10 ^ 22 := by
      refine key.trans ?_
      have : 0 < 1 / b ^ 3 := by positivity
      have h2 : 1 / a ^ 3 ≤ 1 / 65 ^ 3 := one_div_le_one_div_of_le (by norm_num) (by gcongr)
      have h3 : 11 / 10 ^ 18 * (1 / a ^ 3) ≤ 11 / 10 ^ 18 * (1 / 65 ^ 3) := mul_le_mul_of_nonneg_left h2 (by norm_num)
      have h4 : (11 / 10 ^ 18 * (1 / 65 ^ 3) : ℝ) ≤ 1 / 10 ^ 22 := by norm_num
      have h5 : 0 ≤ 11 / 10 ^ 18 * (1 / b ^ 3) := by positivity
      linarith
    rw [one_mul] at h1
    exact ⟨(Real.abs_le_sqrt (by nlinarith [sq_nonneg D1])).trans h1, (Real.abs_le_sqrt (by nlinarith [sq_nonneg D])).trans h1⟩
  · intro x hx
    refine ((Φ_hasDerivAt (hge x hx)).sub (((hc x).const_mul (Φ a)).add ((hs x).const_mul (Φ1 a)))).congr_deriv ?_
    ring
  · intro x hx
    refine ((Φ1_hasDerivAt (hge x hx)).sub (((hs x).const_mul (Φ a)).neg.add ((hc x).const_mul (Φ1 a)))).congr_deriv ?_
    ring
  · intro x _; exact hasDerivAt_const x 1
  · intro x _; exact le_rfl
  · intro x _; norm_num
  · intro x hx
    have hx0 : 0 < x := by linarith [hge x hx]
    have h := ((hasDerivAt_const x (1 : ℝ)).div (hasDerivAt_pow 3 x) (by positivity)).const_mul (-(11 / 10 ^ 18 : ℝ))
    refine h.congr_deriv ?_
    field_simp
    norm_num
    ring
  · intro x hx
    have hx1 := hge x hx
    have h1 := residual hx1
    have h2 := abs_Φ_le hx1
    rw [abs_neg, abs_mul]
    have h3 : 0 < 1 / x ^ 4 := by positivity
    calc |liouQ qB S S1 S2 S3 x - 1| * |Φ x| ≤ (23 / 10 ^ 18 * (1 / x ^ 4)) * 1.37 := mul_le_mul h1 h2 (abs_nonneg _) (by positivity)
      _ ≤ _ := by nlinarith

/-! ## the anchor -/

theorem lip {f f' : ℝ → ℝ} {a b C : ℝ} (hab : a ≤ b) (hf : ∀ x ∈ Set.Icc a b, HasDerivAt f (f' x) x) (hC : ∀ x ∈ Set.Icc a b, |f' x| ≤ C) :
    |f b - f a| ≤ C * (b - a) := by
  have h := Convex.norm_image_sub_le_of_norm_hasDerivWithin_le (f := f) (f' := f') (s := Set.Icc a b) (x := a) (y := b) (C := C)
    (fun x hx => (hf x hx).hasDerivWithinAt) hC (convex_Icc a b) (Set.left_mem_Icc.2 hab) (Set.right_mem_Icc.2 hab)
  rwa [Real.norm_eq_abs, Real.norm_eq_abs, abs_of_nonneg (sub_nonneg.2 hab)] at h

theorem lip' {f f' : ℝ → ℝ} {c a b C : ℝ} (ha : c ≤ a) (hb : c ≤ b) (hf : ∀ x, c ≤ x → HasDerivAt f (f' x) x) (hC : ∀ x, c ≤ x → |f' x| ≤ C) :
    |f b - f a| ≤ C * |b - a| :=
  Convex.norm_image_sub_le_of_norm_hasDerivWithin_le (f := f) (f' := f') (s := Set.Ici c) (x := a) (y := b) (C := C)
    (fun x hx => (hf x hx).hasDerivWithinAt) hC (convex_Ici c) ha hb

theorem mul_close {x x0 y y0 e f X Y : ℝ} (h1 : |x - x0| ≤ e) (h2 : |y - y0| ≤ f) (h3 : |x0| ≤ X) (h4 : |y| ≤ Y) :
    |x * y - x0 * y0| ≤ e * Y + X * f := by
  have e1 : x * y - x0 * y0 = (x - x0) * y + x0 * (y - y0) := by ring
  rw [e1]
  refine (abs_add_le _ _).trans ?_
  rw [abs_mul, abs_mul]
  have := (abs_nonneg (x - x0)).trans h1
  have := (abs_nonneg x0).trans h3
  gcongr

/-- the argument of the 21st zero -/
noncomputable def anc : ℝ := Real.pi * 20.75
noncomputable def anc0 : ℝ := 65.188047561988209698045

theorem anc_close : anc0 ≤ anc ∧ anc - anc0 ≤ 3 / 10 ^ 19 := by
  have h1 := Real.pi_gt_d20
  have h2 := Real.pi_lt_d20
  rw [anc, anc0]
  constructor
  · norm_num at *; linarith
  · norm_num at *; linarith

theorem anc0_ge : 65 ≤ anc0 := by norm_num [anc0]
theorem anc_ge : 65 ≤ anc := anc0_ge.trans anc_close.1

theorem S_anc : |S anc - 65.18996480020686044064| ≤ 5 / 10 ^ 19 := by
  obtain ⟨h1, h2⟩ := anc_close
  have h := lip h1 (f := S) (f' := S1) (C := 1.001) (fun x hx => S_hasDerivAt (by linarith [hx.1, anc0_ge])) (fun x hx => by
    have h65 : 65 ≤ x := by linarith [hx.1, anc0_ge]
    rw [abs_of_nonneg (by linarith [S1_pos h65])]; exact S1_le h65)
  have h0 : |S anc0 - 65.18996480020686044064| ≤ 15 / 10 ^ 20 := by
    simp only [S, ST, ListPoly.ev_cons, ListPoly.ev_nil, anc0, Q]
    rw [abs_le]
    constructor <;> norm_num
  rw [abs_le] at *
  norm_num at *
  constructor <;> linarith

theorem S1_anc : |S1 anc - 0.99997059804251702416| ≤ 1 / 10 ^ 19 := by
  obtain ⟨h1, h2⟩ := anc_close
  have h := lip h1 (f := S1) (f' := S2) (C := 2 / 1000000) (fun x hx => S1_hasDerivAt (by linarith [hx.1, anc0_ge])) (fun x hx => by
    have h65 : 65 ≤ x := by linarith [hx.1, anc0_ge]
    exact S2_small h65)
  have h0 : |S1 anc0 - 0.99997059804251702416| ≤ 5 / 10 ^ 20 := by
    have e : L1 = [100000000000000000000000000000000, -12500000000000000000000000000000, 24218750000000001000000000000000, -123014322916666670000000000000000, 1277107137044270700000000000000000, -22802773317609515400000000000000000, 624408853348701740000000000000000000, -24297619486701685800000000000000000000, 1274030370448723200000000000000000000000, -86568328608378556000000000000000000000000, 0] := by decide +kernel
    simp only [S1, e, ListPoly.ev_cons, ListPoly.ev_nil, anc0, Q]
    rw [abs_le]
    constructor <;> norm_num
  rw [abs_le] at *
  norm_num at *
  constructor <;> linarith

theorem φ_anc : |φ (S anc)| ≤ 2 / 10 ^ 18 := by
  have h1 := S_anc
  have h2 := lip' (f := φ) (f' := φ1) (c := 1) (a := 65.18996480020686044064) (b := S anc) (C := 1.36) (by norm_num)
    (by linarith [S_ge anc_ge]) (fun x hx => φ_hasDerivAt (by linarith)) (fun x hx => abs_φ1_le hx)
  have h3 := BesselTable.anchor_zero.1
  have h4 : |φ (S anc)| ≤ |φ (S anc) - φ 65.18996480020686044064| + |φ 65.18996480020686044064| := by
    have := abs_add_le (φ (S anc) - φ 65.18996480020686044064) (φ 65.18996480020686044064)
    rwa [sub_add_cancel] at this
  norm_num at *
  linarith

/-- `S' S J₁(S)²`, which is nearly constant at the zeros -/
noncomputable def X2 (β : ℝ) : ℝ := S1 β * (S β * J1 (S β) ^ 2)

theorem J1_anc : |J1 (S anc) ^ 2 - 0.00976589713979105054| ≤ 15 / 10 ^ 20 := by
  have h1 := S_anc
  have hS := S_ge anc_ge
  have h2 := lip' (f := J1) (f' := fun s => J0 s - J1 s / s) (c := 64) (a := 65.18996480020686044064) (b := S anc) (C := 1.02) (by norm_num)
    (by linarith) (fun x hx => J1_hasDerivAt (by linarith)) (fun x hx => by
      have a1 := abs_J0_le (s := x) (by linarith)
      have a2 := abs_J1_le (s := x) (by linarith)
      refine (abs_sub _ _).trans ?_
      rw [abs_div, abs_of_pos (show 0 < x by linarith)]
      have : |J1 x| / x ≤ 1 / 64 := div_le_div₀ (by norm_num) a2 (by norm_num) hx
      linarith [show (1 / 64 : ℝ) ≤ 0.02 by norm_num])
  have h3 := BesselTable.anchor_zero.2
  set j0 := J1 65.18996480020686044064
  set j := J1 (S anc)
  have hj0 : |j0 ^ 2 - 0.00976589713979105054| ≤ 3 / 10 ^ 20 := by
    rw [abs_le] at *
    norm_num at *
    constructor <;> nlinarith
  have hj0a : |j0| ≤ 0.1 := by
    apply abs_le_of_sq_le_sq _ (by norm_num)
    have := (abs_le.1 hj0).2
    norm_num at *
    linarith
  have hd : |j - j0| ≤ 52 / 10 ^ 20 := by
    refine h2.trans ?_
    calc (1.02 : ℝ) * |S anc - 65.18996480020686044064| ≤ 1.02 * (5 / 10 ^ 19) := by gcongr
      _ ≤ _ := by norm_num
  have hja : |j| ≤ 0.101 := by
    have h5 : |j| ≤ |j - j0| + |j0| := by
      have := abs_add_le (j - j0) j0
      rwa [sub_add_cancel] at this
    norm_num at *
    linarith
  have h6 : |j ^ 2 - j0 ^ 2| ≤ 11 / 10 ^ 20 := by
    have e : j ^ 2 - j0 ^ 2 = (j - j0) * (j + j0) := by ring
    rw [e, abs_mul]
    calc |j - j0| * |j + j0| ≤ 52 / 10 ^ 20 * (0.101 + 0.1) := by
          gcongr; exact (abs_add_le _ _).trans (by linarith)
      _ ≤ _ := by norm_num
  rw [abs_le] at *
  norm_num at *
  constructor <;> linarith

theorem X2_anc : |X2 anc * (Real.pi / 2) - 1| ≤ 3 / 10 ^ 17 := by
  have h1 := S_anc
  have h2 := S1_anc
  have h3 := J1_anc
  have hπ : |Real.pi / 2 - 1.57079632679489661923| ≤ 1 / 10 ^ 20 := by
    have := Real.pi_gt_d20
    have := Real.pi_lt_d20
    rw [abs_le]
    norm_num at *
    constructor <;> linarith
  have hJ : |J1 (S anc) ^ 2| ≤ 0.01 := by rw [abs_le] at *; norm_num at *; constructor <;> linarith
  have k1 := mul_close h1 h3 (X := 66) (Y := 0.01) (by norm_num) hJ
  have k1' : |S anc * J1 (S anc) ^ 2| ≤ 0.7 := by
    rw [abs_le] at k1 ⊢; norm_num at *; constructor <;> linarith
  have k2 := mul_close h2 k1 (X := 1) (Y := 0.7) (by norm_num) k1'
  have k3 := mul_close k2 hπ (X := 0.7) (Y := 1.6) (by norm_num) (by rw [abs_le] at hπ ⊢; norm_num at *; constructor <;> linarith)
  rw [X2]
  rw [abs_le] at *
  norm_num at *
  constructor <;> linarith

/-! ## all later zeros -/

theorem Φ1_eq (hβ : 65 ≤ β) : Φ1 β = -(√(S1 β) * √(S β) * J1 (S β)) + φ (S β) * (√(S1 β) / (2 * S β) - S2 β / (2 * (√(S1 β) * S1 β))) := by
  have hS : 0 < S β := by linarith [S_ge hβ]
  have hsq : 0 < √(S β) := Real.sqrt_pos.2 hS
  have e : √(S β) ^ 2 = S β := Real.sq_sqrt hS.le
  rw [Φ1, liou1, φ1, φ]
  have h1 : J0 (S β) / (2 * √(S β)) = √(S β) * J0 (S β) / (2 * S β) := by
    rw [div_eq_div_iff (by positivity) (by positivity)]
    linear_combination (-2 * J0 (S β)) * e
  rw [h1]
  ring

theorem Φ1_close (hβ : 65 ≤ β) : |Φ1 β + √(S1 β) * √(S β) * J1 (S β)| ≤ 0.02 * |φ (S β)| := by
  have hS := S_ge hβ
  obtain ⟨h1, h2⟩ := sqrt_S1 hβ
  have h3 := S2_small hβ
  have h4 := S1_pos hβ
  have e : Φ1 β + √(S1 β) * √(S β) * J1 (S β) = φ (S β) * (√(S1 β) / (2 * S β) - S2 β / (2 * (√(S1 β) * S1 β))) := by
    rw [Φ1_eq hβ]; ring
  rw [e, abs_mul, mul_comm]
  apply mul_le_mul_of_nonneg_right _ (abs_nonneg _)
  refine (abs_sub _ _).trans ?_
  rw [abs_div, abs_div, abs_of_nonneg (Real.sqrt_nonneg _), abs_of_pos (show 0 < 2 * S β by linarith),
    abs_of_pos (show 0 < 2 * (√(S1 β) * S1 β) by positivity)]
  have a1 : √(S1 β) / (2 * S β) ≤ 1.001 / 129 := div_le_div₀ (by norm_num) h2 (by norm_num) (by linarith)
  have a2 : |S2 β| / (2 * (√(S1 β) * S1 β)) ≤ (2 / 1000000) / 1 := div_le_div₀ (by norm_num) h3 (by norm_num) (by nlinarith)
  norm_num at *
  linarith

/-- `β_k = π (k - 1/4)` -/
noncomputable def bk (k : ℕ) : ℝ := Real.pi * (k - 0.25)

theorem bk_eq {k : ℕ} (hk : 21 ≤ k) : bk k - anc = (k - 21 : ℕ) * Real.pi := by
  rw [bk, anc]; push_cast [Nat.cast_sub hk]; ring

theorem bk_ge {k : ℕ} (hk : 21 ≤ k) : anc ≤ bk k := by
  have := bk_eq hk
  have h : (0 : ℝ) ≤ (k - 21 : ℕ) * Real.pi := by positivity
  linarith

theorem φ_bk {k : ℕ} (hk : 21 ≤ k) : |φ (S (bk k))| ≤ 3 / 10 ^ 18 ∧
    |X2 (bk k) * (Real.pi / 2) - 1| ≤ 4 / 10 ^ 17 := by
  have hb := bk_ge hk
  have h65 := anc_ge.trans hb
  obtain ⟨t1, t2⟩ := trig_compare anc_ge hb
  rw [bk_eq hk, Real.sin_nat_mul_pi] at t1 t2
  simp only [mul_zero, add_zero, neg_zero, zero_add] at t1 t2
  have hc : |Real.cos ((k - 21 : ℕ) * Real.pi)| = 1 := by
    rw [Real.cos_nat_mul_pi, abs_pow, abs_neg, abs_one, one_pow]
  set c := Real.cos ((k - 21 : ℕ) * Real.pi)
  obtain ⟨sa1, sa2⟩ := sqrt_S1 anc_ge
  obtain ⟨sb1, sb2⟩ := sqrt_S1 h65
  have ha := φ_anc
  have hΦa : |Φ anc| ≤ 21 / 10 ^ 19 := by
    rw [Φ, liou, abs_div, abs_of_nonneg (Real.sqrt_nonneg _), div_le_iff₀ (by linarith)]
    norm_num at *
    linarith
  have hΦb : |Φ (bk k)| ≤ 22 / 10 ^ 19 := by
    have h1 : |Φ (bk k)| ≤ |Φ (bk k) - Φ anc * c| + |Φ anc * c| := by
      have := abs_add_le (Φ (bk k) - Φ anc * c) (Φ anc * c)
      rwa [sub_add_cancel] at this
    rw [abs_mul, hc, mul_one] at h1
    norm_num at *
    linarith
  have hφb : |φ (S (bk k))| ≤ 3 / 10 ^ 18 := by
    have e : φ (S (bk k)) = Φ (bk k) * √(S1 (bk k)) := by
      rw [Φ, liou, div_mul_cancel₀]; exact (lt_of_lt_of_le (by norm_num) sb1).ne'
    rw [e, abs_mul, abs_of_nonneg (Real.sqrt_nonneg _)]
    calc |Φ (bk k)| * √(S1 (bk k)) ≤ 22 / 10 ^ 19 * 1.001 := by gcongr
      _ ≤ _ := by norm_num
  refine ⟨hφb, ?_⟩
  have ca := Φ1_close anc_ge
  have cb := Φ1_close h65
  set Ya := √(S1 anc) * √(S anc) * J1 (S anc) with hYa
  set Yb := √(S1 (bk k)) * √(S (bk k)) * J1 (S (bk k)) with hYb
  have ea : X2 anc = Ya ^ 2 := by
    rw [X2, hYa, mul_pow, mul_pow, Real.sq_sqrt (by linarith [S1_pos anc_ge]), Real.sq_sqrt (by linarith [S_ge anc_ge])]; ring
  have eb : X2 (bk k) = Yb ^ 2 := by
    rw [X2, hYb, mul_pow, mul_pow, Real.sq_sqrt (by linarith [S1_pos h65]), Real.sq_sqrt (by linarith [S_ge h65])]; ring
  have hd : |Yb - Ya * c| ≤ 15 / 10 ^ 20 := by
    have e : Yb - Ya * c = (Φ1 (bk k) + Yb) - (Φ1 anc + Ya) * c - (Φ1 (bk k) - Φ1 anc * c) := by ring
    rw [e]
    have h1 := abs_sub ((Φ1 (bk k) + Yb) - (Φ1 anc + Ya) * c) (Φ1 (bk k) - Φ1 anc * c)
    have h2 := abs_sub (Φ1 (bk k) + Yb) ((Φ1 anc + Ya) * c)
    rw [abs_mul, hc, mul_one] at h2
    norm_num at *
    linarith
  have hX := X2_anc
  rw [ea] at hX
  have hπ := Real.pi_gt_three
  have hπ4 := Real.pi_lt_four
  have hYa2 : Ya ^ 2 ≤ 1 := by
    have := (abs_le.1 hX).2
    norm_num at this
    nlinarith
  have hYaa : |Ya * c| ≤ 1 := by
    rw [abs_mul, hc, mul_one]
    exact abs_le_of_sq_le_sq (by linarith) (by norm_num)
  have hc2 : c ^ 2 = 1 := by rw [← sq_abs, hc]; norm_num
  have hYbb : |Yb + Ya * c| ≤ 2.1 := by
    have e : Yb + Ya * c = (Yb - Ya * c) + 2 * (Ya * c) := by ring
    rw [e]
    refine (abs_add_le _ _).trans ?_
    rw [abs_mul, abs_two]
    norm_num at *
    linarith
  have hdiff : |Yb ^ 2 - Ya ^ 2| ≤ 32 / 10 ^ 20 := by
    have e : Yb ^ 2 - Ya ^ 2 = (Yb - Ya * c) * (Yb + Ya * c) := by linear_combination (Ya ^ 2) * hc2
    rw [e, abs_mul]
    calc |Yb - Ya * c| * |Yb + Ya * c| ≤ 15 / 10 ^ 20 * 2.1 := by gcongr
      _ ≤ _ := by norm_num
  rw [eb]
  have e : Yb ^ 2 * (Real.pi / 2) - 1 = (Ya ^ 2 * (Real.pi / 2) - 1) + (Yb ^ 2 - Ya ^ 2) * (Real.pi / 2) := by ring
  rw [e]
  refine (abs_add_le _ _).trans ?_
  rw [abs_mul, abs_of_pos (show 0 < Real.pi / 2 by linarith)]
  have : |Yb ^ 2 - Ya ^ 2| * (Real.pi / 2) ≤ 32 / 10 ^ 20 * 2 := by gcongr; linarith
  norm_num at *
  linarith

end GaussQuad.McMahon
