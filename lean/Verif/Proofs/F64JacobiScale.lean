import Verif.Proofs.F64Jacobi

/-! The scale factor of the Jacobi rule in binary64. -/

set_option exponentiation.threshold 3000

namespace GaussQuad.F64
open FloatOps Spec MeasureTheory Polynomial Props

theorem near_mul_rel {x y : F64} {r s γ δ d : ℝ} {p q : ℕ} (hx : Near x r (γ * r)) (hy : Near y s (δ * s)) (hr : 0 < r) (hs : 0 < s) (hm : Mag (r * s) p q)
    (hp : p ≤ 1012) (hq : q ≤ 1015) (hγ0 : 0 ≤ γ) (hδ0 : 0 ≤ δ) (hγ : γ ≤ 0.001) (hδ : δ ≤ 0.001) (hd : γ + δ + 2 * (γ * δ) + 1.01 * U ≤ d) :
    Near (F64.mul x y) (r * s) (d * (r * s)) := by
  have hU := U_pos
  have hrs := hm.pos
  have hlo := (hm.mono hp le_rfl).1
  have hhi := (hm.mono le_rfl hq).2
  have hprod : (1 + γ) * (1 + δ) ≤ 1.003 := by nlinarith
  have := hx.mul hy (A := (1 + γ) * r) (B := (1 + δ) * s) (by rw [abs_of_pos hr]; linarith) (by rw [abs_of_pos hs]; linarith) (by
    calc (1 + γ) * r * ((1 + δ) * s) = (1 + γ) * (1 + δ) * (r * s) := by ring
      _ ≤ 1.003 * 2 ^ 1015 := mul_le_mul hprod hhi hrs.le (by norm_num)
      _ ≤ _ := by norm_num)
  refine this.mono ?_
  have ht : (1 : ℝ) / 2 ^ 1075 ≤ 0.001 * U * (r * s) := by
    calc (1 : ℝ) / 2 ^ 1075 ≤ 0.001 * U * (1 / 2 ^ 1012) := by unfold U; norm_num
      _ ≤ _ := mul_le_mul_of_nonneg_left hlo (by positivity)
  calc _ = (γ + δ + 2 * (γ * δ) + U * ((1 + γ) * (1 + δ))) * (r * s) + 1 / 2 ^ 1075 := by ring
    _ ≤ (γ + δ + 2 * (γ * δ) + U * 1.003) * (r * s) + 0.001 * U * (r * s) := by
        refine add_le_add (mul_le_mul_of_nonneg_right ?_ hrs.le) ht
        have := mul_le_mul_of_nonneg_left hprod hU.le
        linarith
    _ = (γ + δ + 2 * (γ * δ) + 1.004 * U) * (r * s) := by ring
    _ ≤ d * (r * s) := mul_le_mul_of_nonneg_right (by linarith) hrs.le

theorem near_div_rel {x y : F64} {r s γ δ d : ℝ} {p q : ℕ} (hx : Near x r (γ * r)) (hy : Near y s (δ * s)) (hr : 0 < r) (hs : 0 < s) (hm : Mag (r / s) p q)
    (hp : p ≤ 1012) (hq : q ≤ 1015) (hγ0 : 0 ≤ γ) (hδ0 : 0 ≤ δ) (hγ : γ ≤ 0.001) (hδ : δ ≤ 0.001) (hd : 1.003 * γ + 1.002 * δ + 1.01 * U ≤ d) :
    Near (F64.div x y) (r / s) (d * (r / s)) := by
  have hU := U_pos
  have hU1 := U_le_eta
  have hrs := hm.pos
  have hlo := (hm.mono hp le_rfl).1
  have hhi := (hm.mono le_rfl hq).2
  have e : γ * r / |s| = γ * (r / s) := by rw [abs_of_pos hs]; ring
  have e2 : |r| / |s| = r / s := by rw [abs_of_pos hs, abs_of_pos hr]
  have hγq : γ * (r / s) ≤ 0.001 * (r / s) := mul_le_mul_of_nonneg_right hγ hrs.le
  have := hx.div (δ := δ) (by rw [abs_of_pos hs]; exact hy) hs.ne' hδ0 hδ (by
    rw [e, e2]
    exact le_trans (by linarith : _ ≤ 2 * (2 : ℝ) ^ 1015) (by norm_num))
  refine this.mono ?_
  rw [e, e2]
  have ht : (1 : ℝ) / 2 ^ 1075 ≤ 0.001 * U * (r / s) := by
    calc (1 : ℝ) / 2 ^ 1075 ≤ 0.001 * U * (1 / 2 ^ 1012) := by unfold U; norm_num
      _ ≤ _ := mul_le_mul_of_nonneg_left hlo (by positivity)
  calc _ = ((1.002 + 1.002 * U) * γ + (1.002 * δ + 1.003 * U)) * (r / s) + 1 / 2 ^ 1075 := by ring
    _ ≤ ((1.002 + 1.002 * U) * γ + (1.002 * δ + 1.003 * U)) * (r / s) + 0.001 * U * (r / s) := by linarith
    _ = ((1.002 + 1.002 * U) * γ + 1.002 * δ + 1.004 * U) * (r / s) := by ring
    _ ≤ d * (r / s) := by
        refine mul_le_mul_of_nonneg_right ?_ hrs.le
        have : (1.002 + 1.002 * U) * γ ≤ 1.003 * γ := mul_le_mul_of_nonneg_right (by linarith) hγ0
        linarith

theorem near_div_rel' {x y : F64} {r s γ δ d : ℝ} {p q : ℕ} (hx : Near x r (γ * |r|)) (hy : Near y s (δ * |s|)) (hs : s ≠ 0) (hm : Mag (|r| / |s|) p q)
    (hp : p ≤ 1012) (hq : q ≤ 1015) (hγ0 : 0 ≤ γ) (hδ0 : 0 ≤ δ) (hγ : γ ≤ 0.001) (hδ : δ ≤ 0.001) (hd : 1.003 * γ + 1.002 * δ + 1.01 * U ≤ d) :
    Near (F64.div x y) (r / s) (d * |r / s|) := by
  have hU := U_pos
  have hU1 := U_le_eta
  have hrs := hm.pos
  have hlo := (hm.mono hp le_rfl).1
  have hhi := (hm.mono le_rfl hq).2
  have e : γ * |r| / |s| = γ * (|r| / |s|) := by ring
  have hγq : γ * (|r| / |s|) ≤ 0.001 * (|r| / |s|) := mul_le_mul_of_nonneg_right hγ hrs.le
  have := hx.div (δ := δ) hy hs hδ0 hδ (by
    rw [e]
    exact le_trans (by linarith : _ ≤ 2 * (2 : ℝ) ^ 1015) (by norm_num))
  refine this.mono ?_
  rw [e, abs_div]
  have ht : (1 : ℝ) / 2 ^ 1075 ≤ 0.001 * U * (|r| / |s|) := by
    calc (1 : ℝ) / 2 ^ 1075 ≤ 0.001 * U * (1 / 2 ^ 1012) := by unfold U; norm_num
      _ ≤ _ := mul_le_mul_of_nonneg_left hlo (by positivity)
  calc _ = ((1.002 + 1.002 * U) * γ + (1.002 * δ + 1.003 * U)) * (|r| / |s|) + 1 / 2 ^ 1075 := by ring
    _ ≤ ((1.002 + 1.002 * U) * γ + (1.002 * δ + 1.003 * U)) * (|r| / |s|) + 0.001 * U * (|r| / |s|) := by linarith
    _ = ((1.002 + 1.002 * U) * γ + 1.002 * δ + 1.004 * U) * (|r| / |s|) := by ring
    _ ≤ d * (|r| / |s|) := by
        refine mul_le_mul_of_nonneg_right ?_ hrs.le
        have : (1.002 + 1.002 * U) * γ ≤ 1.003 * γ := mul_le_mul_of_nonneg_right (by linarith) hγ0
        linarith

/-- the mass of the weight function is not tiny -/
theorem jac_mass_lo {α β : ℝ} (hα : -1 < α) (hβ : -1 < β) (hs : α + β ≤ 164) :
    1 / 2 ^ 200 ≤ ∫ x in Set.Ioo (-1 : ℝ) 1, jacW α β x := by
  have hint : IntegrableOn (jacW α β) (Set.Ioo (-1) 1) := by
    have := integrable_jacobi hα hβ 1
    simpa using this
  have hpos : ∀ x ∈ Set.Ioo (-1 : ℝ) 1, 0 ≤ jacW α β x := fun x hx =>
    mul_nonneg (Real.rpow_nonneg (by linarith [hx.2]) _) (Real.rpow_nonneg (by linarith [hx.1]) _)
  have one : ∀ {t γ : ℝ}, 1 / 2 ≤ t → t ≤ 3 / 2 → -1 < γ → (1 / 2 : ℝ) ^ (max γ 0 + 1) ≤ t ^ γ := by
    intro t γ h1 h2 h3
    rcases le_total 0 γ with h | h
    · calc (1 / 2 : ℝ) ^ (max γ 0 + 1) ≤ (1 / 2 : ℝ) ^ γ := Real.rpow_le_rpow_of_exponent_ge (by norm_num) (by norm_num) (by rw [max_eq_left h]; linarith)
        _ ≤ t ^ γ := Real.rpow_le_rpow (by norm_num) h1 h
    · calc (1 / 2 : ℝ) ^ (max γ 0 + 1) ≤ (3 / 2 : ℝ) ^ (-1 : ℝ) := by rw [max_eq_right h, Real.rpow_neg_one]; norm_num
        _ ≤ (3 / 2 : ℝ) ^ γ := Real.rpow_le_rpow_of_exponent_le (by norm_num) h3.le
        _ ≤ t ^ γ := Real.rpow_le_rpow_of_nonpos (by linarith) h2 h
  have hsub : Set.Icc (-(1 / 2) : ℝ) (1 / 2) ⊆ Set.Ioo (-1) 1 := fun x hx => ⟨by linarith [hx.1], by linarith [hx.2]⟩
  have h1 : ∫ x in Set.Icc (-(1 / 2) : ℝ) (1 / 2), jacW α β x ≤ ∫ x in Set.Ioo (-1 : ℝ) 1, jacW α β x := by
    refine setIntegral_mono_set hint ?_ (Filter.Eventually.of_forall hsub)
    exact (ae_restrict_iff' measurableSet_Ioo).2 (Filter.Eventually.of_forall hpos)
  have h2 : ∫ _x in Set.Icc (-(1 / 2) : ℝ) (1 / 2), (1 / 2 ^ 168 : ℝ) ≤ ∫ x in Set.Icc (-(1 / 2) : ℝ) (1 / 2), jacW α β x := by
    refine setIntegral_mono_on (integrableOn_const (by simp)) (hint.mono_set hsub) measurableSet_Icc fun x hx => ?_
    have a1 := one (t := 1 - x) (by linarith [hx.2]) (by linarith [hx.1]) hα
    have a2 := one (t := 1 + x) (by linarith [hx.1]) (by linarith [hx.2]) hβ
    have hm : max α 0 + 1 + (max β 0 + 1) ≤ 168 := by
      rcases le_total 0 α with h | h <;> rcases le_total 0 β with h' | h' <;> simp only [max_eq_left, max_eq_right, h, h'] <;> linarith
    calc (1 / 2 ^ 168 : ℝ) = (1 / 2 : ℝ) ^ (168 : ℝ) := by rw [show (168 : ℝ) = ((168 : ℕ) : ℝ) by norm_num, Real.rpow_natCast]; norm_num
      _ ≤ (1 / 2 : ℝ) ^ (max α 0 + 1 + (max β 0 + 1)) := Real.rpow_le_rpow_of_exponent_ge (by norm_num) (by norm_num) hm
      _ = (1 / 2 : ℝ) ^ (max α 0 + 1) * (1 / 2 : ℝ) ^ (max β 0 + 1) := Real.rpow_add (by norm_num) _ _
      _ ≤ _ := mul_le_mul a1 a2 (by positivity) (le_trans (by positivity) a1)
  rw [setIntegral_const] at h2
  norm_num at h2
  refine le_trans ?_ (h2.trans h1)
  norm_num

theorem gamma_mag {α : ℝ} (hg : -1 + 1 / 2 ^ 55 ≤ α) (h2 : α ≤ 82) : Mag (Real.Gamma (α + 1)) 1 408 := by
  have h55 : (0 : ℝ) < 1 / 2 ^ 55 := by positivity
  refine ⟨by simpa using half_le_Gamma (by linarith : 0 < α + 1), ?_⟩
  rcases le_total 0 α with h | h
  · refine (Gamma_le_factorial (δ := 1) (k := 82) (by linarith) one_pos le_rfl (by norm_num) (by push_cast; linarith)).trans ?_
    rw [div_one]
    have : Nat.factorial 82 ≤ 2 ^ 408 := by decide +kernel
    exact_mod_cast this
  · refine (Gamma_le_factorial (δ := 1 / 2 ^ 55) (k := 1) (by linarith) (by positivity) (by norm_num) le_rfl (by push_cast; linarith)).trans ?_
    norm_num

theorem gamma_mag' {x : ℝ} (h1 : 1 / 2 ^ 10 ≤ x) (h2 : x ≤ 167) : Mag (Real.Gamma x) 1 1000 := by
  refine ⟨by simpa using half_le_Gamma (lt_of_lt_of_le (by positivity) h1), ?_⟩
  refine (Gamma_le_factorial (δ := 1 / 2 ^ 10) (k := 166) h1 (by positivity) (by norm_num) (by norm_num) (by push_cast; linarith)).trans ?_
  have : Nat.factorial 166 * 2 ^ 10 ≤ 2 ^ 1000 := by decide +kernel
  have : (Nat.factorial 166 : ℝ) * 2 ^ 10 ≤ 2 ^ 1000 := by exact_mod_cast this
  rw [div_div_eq_mul_div, div_one]
  exact this

/-- division by a slightly perturbed denominator -/
theorem near_div_perturb {x : F64} {r G G' γ τ : ℝ} (hx : Near x (r / G') (γ * (r / G'))) (hr : 0 < r) (hG : 0 < G) (hG' : |G' - G| ≤ τ * G) (hτ : τ ≤ 0.0001)
    (hτ0 : 0 ≤ τ) (hγ0 : 0 ≤ γ) {d : ℝ} (hd : 1.001 * γ + 1.001 * τ ≤ d) : Near x (r / G) (d * (r / G)) := by
  have h1 := _root_.abs_le.1 hG'
  have hτG : τ * G ≤ 0.0001 * G := mul_le_mul_of_nonneg_right hτ hG.le
  have hG'0 : 0 < G' := by linarith
  have hrG : 0 < r / G := by positivity
  have hinv : r / G' ≤ 1.001 * (r / G) := by
    rw [div_le_iff₀ hG'0]
    calc r = r / G * G := by field_simp
      _ ≤ r / G * (1.001 * G') := mul_le_mul_of_nonneg_left (by linarith) hrG.le
      _ = _ := by ring
  have h2 : |r / G' - r / G| ≤ 1.001 * τ * (r / G) := by
    have e : r / G' - r / G = r / G' * ((G - G') / G) := by field_simp
    rw [e, abs_mul, abs_of_pos (by positivity : 0 < r / G'), abs_div, abs_of_pos hG, abs_sub_comm]
    calc r / G' * (|G' - G| / G) ≤ 1.001 * (r / G) * τ := by
          refine mul_le_mul hinv ?_ (by positivity) (by positivity)
          rw [div_le_iff₀ hG]; exact hG'
      _ = _ := by ring
  refine (hx.shift h2).mono ?_
  have h3 : γ * (r / G') ≤ γ * (1.001 * (r / G)) := mul_le_mul_of_nonneg_left hinv hγ0
  have h4 : (1.001 * γ + 1.001 * τ) * (r / G) ≤ d * (r / G) := mul_le_mul_of_nonneg_right hd hrG.le
  linarith

section
variable [L : Libm] {a b : F64} {μ : ℝ}

/-- the computed sum of the parameters and a small integer -/
theorem jac_sum (h : JacOk a b μ) (hsum : μ ≤ a.rv + b.rv + 1) {x : F64} {k : ℕ} (hx : IsNat x k) (hk : 1 ≤ k) (hk2 : k ≤ 2) :
    Near (F64.add (F64.add a b) x) (a.rv + b.rv + k) (2.01 * U * (a.rv + b.rv + 2)) := by
  have hU := U_pos
  have hU1 := U_le_eta
  have ha2 := h.a2
  have hb2 := h.b2
  have hs2 := h.s2
  have hμ0 := h.μ0
  have hk' : (1 : ℝ) ≤ k := by exact_mod_cast hk
  have hk2' : (k : ℝ) ≤ 2 := by exact_mod_cast hk2
  have hxv : x.rv = k := by rw [rv, hx.2]; simp
  have hxn := near_self hx.1
  rw [hxv] at hxn
  obtain ⟨s, hs⟩ : ∃ s, s = a.rv + b.rv := ⟨_, rfl⟩
  have hsabs : |s| ≤ s + 2 := _root_.abs_le.2 ⟨by linarith, by linarith⟩
  have n1 := (near_self h.fa).add (near_self h.fb) (A := |s|) (by rw [hs]; simp) (by
    exact hsabs.trans (le_trans (by linarith : _ ≤ (1000 : ℝ)) (by norm_num)))
  rw [add_zero, zero_add, ← hs] at n1
  have hUs : U * |s| ≤ U * (s + 2) := mul_le_mul_of_nonneg_left hsabs hU.le
  have hUs2 : U * (s + 2) ≤ 0.0001 * (s + 2) := mul_le_mul_of_nonneg_right (by linarith) (by linarith)
  have n2 := n1.add hxn (A := 1.001 * (s + 2)) (by
    rw [abs_of_nonneg (by linarith : 0 ≤ s + k)]; linarith) (by
    exact le_trans (by linarith : _ ≤ (1000 : ℝ)) (by norm_num))
  rw [← hs]
  refine n2.mono ?_
  have : 0 ≤ U * (s + 2) := by
    have : 0 ≤ s + 2 := by linarith
    positivity
  linarith

theorem jac_sum_neg (h : JacOk a b μ) (hn : a.rv + b.rv + 1 ≤ -μ) {x : F64} {k : ℕ} (hx : IsNat x k) (hk : 1 ≤ k) (hk2 : k ≤ 2) :
    Near (F64.add (F64.add a b) x) (a.rv + b.rv + k) (3.01 * U) := by
  have hU := U_pos
  have hU1 := U_le_eta
  have ht := h.t
  have hμ0 := h.μ0
  have hk' : (1 : ℝ) ≤ k := by exact_mod_cast hk
  have hk2' : (k : ℝ) ≤ 2 := by exact_mod_cast hk2
  have hxv : x.rv = k := by rw [rv, hx.2]; simp
  have hxn := near_self hx.1
  rw [hxv] at hxn
  have n1 := (near_self h.fa).add (near_self h.fb) (A := 2) (by rw [abs_of_neg (by linarith)]; linarith) (by norm_num)
  have n2 := n1.add hxn (A := 1.001) (by
    have : |a.rv + b.rv + k| ≤ 1 := _root_.abs_le.2 ⟨by linarith, by linarith⟩
    linarith) (by norm_num)
  exact n2.mono (by linarith)

/-- the sum, whatever its sign -/
theorem jac_sum_abs (h : JacOk a b μ) {x : F64} {k : ℕ} (hx : IsNat x k) (hk : 1 ≤ k) (hk2 : k ≤ 2) :
    Near (F64.add (F64.add a b) x) (a.rv + b.rv + k) (340 * U) := by
  have hU := U_pos
  rcases h.cases with hc | hc
  · refine (jac_sum h hc hx hk hk2).mono ?_
    have : U * (a.rv + b.rv + 2) ≤ U * 166 := mul_le_mul_of_nonneg_left (by linarith [h.s2]) hU.le
    linarith
  · exact (jac_sum_neg h hc hx hk hk2).mono (by linarith)

/-- the sum with 2, relative to its size -/
theorem jac_sum_rel (h : JacOk a b μ) {x : F64} (hx : IsNat x 2) : Near (F64.add (F64.add a b) x) (a.rv + b.rv + 2) (3.01 * (1 / μ * U) * (a.rv + b.rv + 2)) := by
  have hU := U_pos
  have ht := h.t
  have hμ0 := h.μ0
  obtain ⟨hi, -, hiμ⟩ := h.inv
  rcases h.cases with hc | hc
  · refine (jac_sum h hc hx (by norm_num) le_rfl).mono (mul_le_mul_of_nonneg_right ?_ (by linarith))
    have : U ≤ 1 / μ * U := le_mul_of_one_le_left hU.le hi
    linarith
  · refine (jac_sum_neg h hc hx (by norm_num) le_rfl).mono ?_
    calc 3.01 * U = 3.01 * (1 / μ * U) * μ := by rw [show 3.01 * (1 / μ * U) * μ = 3.01 * U * (1 / μ * μ) by ring, hiμ, mul_one]
      _ ≤ _ := mul_le_mul_of_nonneg_left ht (by positivity)

/-- the gamma function at the computed sum -/
theorem jac_perturb (h : JacOk a b μ) {x : F64} {k : ℕ} (hx : IsNat x k) (hk : 1 ≤ k) (hk2 : k ≤ 2) :
    |Real.Gamma ((F64.add (F64.add a b) x).rv + (2 - k)) - Real.Gamma (a.rv + b.rv + 2)| ≤ 11000 * U * Real.Gamma (a.rv + b.rv + 2) := by
  have hU := U_pos
  have hU1 := U_le_eta
  have ha2 := h.a2
  have hb2 := h.b2
  have hs2 := h.s2
  have ht := h.t
  have hμ0 := h.μ0
  obtain ⟨hi, hi2, hiμ⟩ := h.inv
  rcases h.cases with hc | hc
  · have n := jac_sum h hc hx hk hk2
    generalize F64.add (F64.add a b) x = y at n ⊢
    have hpt := gamma_perturb (x := a.rv + b.rv + 2) (y := y.rv + (2 - k)) (δ := 2.01 * U) (by linarith)
      (by rw [show y.rv + (2 - k) - (a.rv + b.rv + 2) = y.rv - (a.rv + b.rv + k) by ring]; exact n.2) (by linarith) (by linarith)
    refine hpt.trans (mul_le_mul_of_nonneg_right (by linarith) (Real.Gamma_pos_of_pos (by linarith)).le)
  · have n := (jac_sum_neg h hc hx hk hk2).2
    generalize F64.add (F64.add a b) x = y at n ⊢
    obtain ⟨s, hs⟩ : ∃ s, s = a.rv + b.rv + 2 := ⟨_, rfl⟩
    obtain ⟨w, hw⟩ : ∃ w, w = y.rv + (2 - k) := ⟨_, rfl⟩
    rw [show y.rv - (a.rv + b.rv + k) = w - s by rw [hw, hs]; ring] at n
    rw [← hs, ← hw]
    have n' := _root_.abs_le.1 n
    have hs0 : μ ≤ s := by linarith
    have hs1 : s ≤ 1 := by linarith
    have hw0 : 0 < w := by linarith
    have hsp : 0 < s := by linarith
    have hpt := gamma_perturb (x := s + 1) (y := w + 1) (δ := 3.01 * U) (by linarith) (by
      rw [show w + 1 - (s + 1) = w - s by ring]
      refine n.trans (le_mul_of_one_le_right (by positivity) (by linarith))) (by linarith) (by linarith)
    rw [Real.Gamma_add_one hsp.ne', Real.Gamma_add_one hw0.ne'] at hpt
    have hG := Real.Gamma_pos_of_pos hsp
    obtain ⟨g, hg⟩ : ∃ g, g = Real.Gamma s := ⟨_, rfl⟩
    obtain ⟨v, hv⟩ : ∃ v, v = Real.Gamma w := ⟨_, rfl⟩
    rw [← hg] at hpt hG ⊢
    rw [← hv] at hpt ⊢
    have hws : 0.999 * s ≤ w := by linarith
    have e : v - g = (w * v - s * g - (w - s) * g) / w := by field_simp; ring
    rw [e, abs_div, abs_of_pos hw0, div_le_iff₀ hw0]
    have h1 : |(w - s) * g| ≤ 3.01 * U * (1000 * s) * g := by
      rw [abs_mul, abs_of_pos hG]
      refine mul_le_mul_of_nonneg_right (n.trans (le_mul_of_one_le_right (by positivity) (by linarith))) hG.le
    calc |w * v - s * g - (w - s) * g| ≤ |w * v - s * g| + |(w - s) * g| := abs_sub _ _
      _ ≤ 2620 * (3.01 * U) * (s * g) + 3.01 * U * (1000 * s) * g := add_le_add hpt h1
      _ = 10896.2 * U * g * s := by ring
      _ ≤ 11000 * 0.999 * U * g * s := by
          have : 0 ≤ U * g * s := by positivity
          linarith
      _ = 11000 * U * g * (0.999 * s) := by ring
      _ ≤ 11000 * U * g * w := mul_le_mul_of_nonneg_left hws (by positivity)

/-- the power of two -/
theorem jac_pow (hP : AccuratePow L) (h : JacOk a b μ) :
    Near (FloatOps.pow (lit 2.0 : F64) (F64.add (F64.add a b) (lit 1.0))) (2 ^ (a.rv + b.rv + 1)) (1e-13 * 2 ^ (a.rv + b.rv + 1)) := by
  have hU := U_pos
  have hU1 := U_le_eta
  have ha2 := h.a2
  have hb2 := h.b2
  have hs2 := h.s2
  have hsum := h.t
  have hμ0 := h.μ0
  have n := jac_sum_abs h lit_one_isNat le_rfl (by norm_num)
  push_cast at n
  set x := F64.add (F64.add a b) (lit 1.0)
  obtain ⟨s, hs⟩ : ∃ s, s = a.rv + b.rv := ⟨_, rfl⟩
  rw [← hs] at n hsum ⊢
  have hΔ : |x.rv - (s + 1)| ≤ 340 * U := n.2
  have hΔ' := _root_.abs_le.1 hΔ
  have hxhi : x.rv ≤ 166 := by linarith
  have h2 : ((lit 2.0 : F64).val : ℝ) = 2 := lit_two_rv
  obtain ⟨f1, f2⟩ := hP (lit 2.0) x lit_two_isNat.1 n.1 (by rw [h2]; norm_num) (by rw [h2]; norm_num) (by change -2 ≤ x.rv; linarith)
    (by change x.rv ≤ 400; linarith) (by
      rw [h2]
      calc (2 : ℝ) ^ x.rv ≤ 2 ^ (166 : ℝ) := Real.rpow_le_rpow_of_exponent_le (by norm_num) hxhi
        _ = 2 ^ 166 := by rw [show (166 : ℝ) = ((166 : ℕ) : ℝ) by norm_num, Real.rpow_natCast]
        _ ≤ _ := by norm_num)
  rw [h2] at f2
  change |(FloatOps.pow (lit 2.0 : F64) x : F64).rv - 2 ^ x.rv| ≤ 1 / 2 ^ 52 * 2 ^ x.rv at f2
  refine ⟨f1, ?_⟩
  have hp : (0 : ℝ) < 2 ^ (s + 1) := Real.rpow_pos_of_pos (by norm_num) _
  have e : (2 : ℝ) ^ x.rv = 2 ^ (s + 1) * 2 ^ (x.rv - (s + 1)) := by rw [← Real.rpow_add (by norm_num)]; congr 1; ring
  have hq : |(2 : ℝ) ^ (x.rv - (s + 1)) - 1| ≤ 680 * U := by
    rw [Real.rpow_def_of_pos (by norm_num)]
    have hl : |Real.log 2 * (x.rv - (s + 1))| ≤ 340 * U := by
      rw [abs_mul, abs_of_pos (Real.log_pos (by norm_num))]
      have := Real.log_two_lt_d9
      calc Real.log 2 * |x.rv - (s + 1)| ≤ 1 * |x.rv - (s + 1)| := mul_le_mul_of_nonneg_right (by linarith) (abs_nonneg _)
        _ ≤ _ := by linarith
    refine (Real.abs_exp_sub_one_le (hl.trans (by linarith))).trans ?_
    linarith
  obtain ⟨q, hqd⟩ : ∃ q, q = (2 : ℝ) ^ (x.rv - (s + 1)) := ⟨_, rfl⟩
  rw [← hqd] at hq e
  have hq' := _root_.abs_le.1 hq
  rw [e] at f2
  calc |(FloatOps.pow (lit 2.0 : F64) x : F64).rv - 2 ^ (s + 1)|
      ≤ |(FloatOps.pow (lit 2.0 : F64) x : F64).rv - 2 ^ (s + 1) * q| + |(2 : ℝ) ^ (s + 1) * q - 2 ^ (s + 1)| := abs_sub_le _ _ _
    _ = |(FloatOps.pow (lit 2.0 : F64) x : F64).rv - 2 ^ (s + 1) * q| + 2 ^ (s + 1) * |q - 1| := by
        rw [← abs_of_pos hp, ← abs_mul, abs_of_pos hp, mul_sub, mul_one]
    _ ≤ 1 / 2 ^ 52 * (2 ^ (s + 1) * q) + 2 ^ (s + 1) * (680 * U) := add_le_add f2 (mul_le_mul_of_nonneg_left hq hp.le)
    _ = 2 ^ (s + 1) * (2 * U * q + 680 * U) := by unfold U; ring
    _ ≤ 2 ^ (s + 1) * (2 * U * 1.1 + 680 * U) := by
        refine mul_le_mul_of_nonneg_left ?_ hp.le
        have : U * q ≤ U * 1.1 := mul_le_mul_of_nonneg_left (by linarith) hU.le
        linarith
    _ ≤ 2 ^ (s + 1) * 1e-13 := mul_le_mul_of_nonneg_left (by unfold U; norm_num) hp.le
    _ = _ := mul_comm _ _

omit L in
theorem jac_num_mag (h : JacOk a b μ) : Mag ((2 : ℝ) ^ (a.rv + b.rv + 1)) 1 166 := by
  have ha2 := h.a2
  have hb2 := h.b2
  have hs2 := h.s2
  have hsum := h.t
  have hμ0 := h.μ0
  constructor
  · calc (1 / 2 ^ 1 : ℝ) = 2 ^ (-1 : ℝ) := by rw [Real.rpow_neg_one]; norm_num
      _ ≤ _ := Real.rpow_le_rpow_of_exponent_le (by norm_num) (by linarith)
  · calc (2 : ℝ) ^ (a.rv + b.rv + 1) ≤ 2 ^ (166 : ℝ) := Real.rpow_le_rpow_of_exponent_le (by norm_num) (by linarith)
      _ = 2 ^ 166 := by rw [show (166 : ℝ) = ((166 : ℕ) : ℝ) by norm_num, Real.rpow_natCast]

/-- the numerator -/
theorem jac_num (hL : AccurateTrig L) (hP : AccuratePow L) (h : JacOk a b μ) :
    Near (F64.mul (F64.mul (FloatOps.pow (lit 2.0 : F64) (F64.add (F64.add a b) (lit 1.0))) (gamma (F64.add a (lit 1.0)))) (gamma (F64.add b (lit 1.0))))
      (2 ^ (a.rv + b.rv + 1) * Real.Gamma (a.rv + 1) * Real.Gamma (b.rv + 1))
      (2.51e-11 * (2 ^ (a.rv + b.rv + 1) * Real.Gamma (a.rv + 1) * Real.Gamma (b.rv + 1))) ∧
    Mag (2 ^ (a.rv + b.rv + 1) * Real.Gamma (a.rv + 1) * Real.Gamma (b.rv + 1)) 3 1000 := by
  have m1 := jac_num_mag h
  have h55 : (0 : ℝ) < 1 / 2 ^ 55 := by positivity
  have q1 := half_le_Gamma (by linarith [h.ga] : 0 < a.rv + 1)
  have q2 := half_le_Gamma (by linarith [h.gb] : 0 < b.rv + 1)
  have p1 : 0 < Real.Gamma (a.rv + 1) := by linarith
  have p2 : 0 < Real.Gamma (b.rv + 1) := by linarith
  have p0 : 0 < (2 : ℝ) ^ (a.rv + b.rv + 1) := m1.pos
  have m12 : Mag ((2 : ℝ) ^ (a.rv + b.rv + 1) * Real.Gamma (a.rv + 1)) 2 1001 := by
    constructor
    · calc (1 : ℝ) / 2 ^ 2 = 1 / 2 ^ 1 * (1 / 2) := by norm_num
        _ ≤ _ := mul_le_mul m1.1 q1 (by norm_num) p0.le
    · have h1 := h.num
      have h2 : (2 : ℝ) ^ (a.rv + b.rv + 1) * Real.Gamma (a.rv + 1) * (1 / 2) ≤ 2 ^ 1000 := le_trans (mul_le_mul_of_nonneg_left q2 (by positivity)) h1
      calc (2 : ℝ) ^ (a.rv + b.rv + 1) * Real.Gamma (a.rv + 1) ≤ 2 ^ 1000 * 2 := by linarith
        _ = 2 ^ 1001 := by norm_num
  have m123 : Mag ((2 : ℝ) ^ (a.rv + b.rv + 1) * Real.Gamma (a.rv + 1) * Real.Gamma (b.rv + 1)) 3 1000 := by
    refine ⟨?_, h.num⟩
    calc (1 : ℝ) / 2 ^ 3 = 1 / 2 ^ 2 * (1 / 2) := by norm_num
      _ ≤ _ := mul_le_mul m12.1 q2 (by norm_num) (by positivity)
  have n1 := jac_pow hP h
  have n2 := lag_scale hL hP h.fa h.a1 (by linarith [h.a2])
  have n3 := lag_scale hL hP h.fb h.b1 (by linarith [h.b2])
  have p1 := near_mul_rel (d := 1.26e-11) n1 n2 m1.pos p1 m12 (by norm_num) (by norm_num) (by norm_num) (by norm_num) (by norm_num) (by norm_num)
    (by unfold U; norm_num)
  have p2 := near_mul_rel (d := 2.51e-11) p1 n3 m12.pos p2 m123 (by norm_num) (by norm_num) (by norm_num) (by norm_num) (by norm_num)
    (by norm_num) (by unfold U; norm_num)
  exact ⟨p2, m123⟩

omit L in
theorem jac_mass_mag (h : JacOk a b μ) : Mag (2 ^ (a.rv + b.rv + 1) * Real.Gamma (a.rv + 1) * Real.Gamma (b.rv + 1) / Real.Gamma (a.rv + b.rv + 2)) 200 1015 := by
  have hsum := h.t
  have hμ0 := h.μ0
  have hga := h.ga
  have hgb := h.gb
  have h55 : (0 : ℝ) < 1 / 2 ^ 55 := by positivity
  have hlo := jac_mass_lo (α := a.rv) (β := b.rv) (by linarith) (by linarith) h.s2
  rw [jacobi_mass (by linarith) (by linarith)] at hlo
  refine ⟨hlo, ?_⟩
  have q := half_le_Gamma (by linarith : 0 < a.rv + b.rv + 2)
  rw [div_le_iff₀ (by linarith)]
  calc _ ≤ (2 : ℝ) ^ 1000 := h.num
    _ ≤ 2 ^ 1015 * (1 / 2) := by norm_num
    _ ≤ _ := mul_le_mul_of_nonneg_left q (by positivity)

omit L in
/-- parameters up to 82 are in the range -/
theorem jac_range (ga : -1 + 1 / 2 ^ 55 ≤ a.rv) (gb : -1 + 1 / 2 ^ 55 ≤ b.rv) (ha : a.rv ≤ 82) (hb : b.rv ≤ 82) :
    2 ^ (a.rv + b.rv + 1) * Real.Gamma (a.rv + 1) * Real.Gamma (b.rv + 1) ≤ 2 ^ 1000 := by
  have m2 := gamma_mag ga ha
  have m3 := gamma_mag gb hb
  have h1 : (2 : ℝ) ^ (a.rv + b.rv + 1) ≤ 2 ^ 165 := by
    calc (2 : ℝ) ^ (a.rv + b.rv + 1) ≤ 2 ^ (165 : ℝ) := Real.rpow_le_rpow_of_exponent_le (by norm_num) (by linarith)
      _ = 2 ^ 165 := by rw [show (165 : ℝ) = ((165 : ℕ) : ℝ) by norm_num, Real.rpow_natCast]
  calc _ ≤ (2 : ℝ) ^ 165 * 2 ^ 408 * 2 ^ 408 := mul_le_mul (mul_le_mul h1 m2.2 m2.pos.le (by positivity)) m3.2 m3.pos.le (by positivity)
    _ ≤ _ := by norm_num

theorem jac_scale (hL : AccurateTrig L) (hP : AccuratePow L) (h : JacOk a b μ) (hSN : a.rv + b.rv < -1 → AccurateSinNeg L) :
    Near (GaussJacobi.weightScale a b) (2 ^ (a.rv + b.rv + 1) * Real.Gamma (a.rv + 1) * Real.Gamma (b.rv + 1) / Real.Gamma (a.rv + b.rv + 2))
      (4e-11 * (2 ^ (a.rv + b.rv + 1) * Real.Gamma (a.rv + 1) * Real.Gamma (b.rv + 1) / Real.Gamma (a.rv + b.rv + 2))) := by
  have hU := U_pos
  have hU1 := U_le_eta
  have ha2 := h.a2
  have hb2 := h.b2
  have hs2 := h.s2
  have hsum := h.t
  have hμ0 := h.μ0
  obtain ⟨nN, mN⟩ := jac_num hL hP h
  have eM : GaussJacobi.weightScale a b = F64.div (F64.div (F64.mul (F64.mul (FloatOps.pow (lit 2.0 : F64) (F64.add (F64.add a b) (lit 1.0)))
      (gamma (F64.add a (lit 1.0)))) (gamma (F64.add b (lit 1.0)))) (gamma (F64.add (F64.add a b) (lit 1.0)))) (F64.add (F64.add a b) (lit 1.0)) := rfl
  rw [eM]
  have nx := jac_sum_abs h lit_one_isNat le_rfl (by norm_num)
  have hpt := jac_perturb h lit_one_isNat le_rfl (by norm_num)
  have hcs := h.cases
  push_cast at nx hpt
  rw [show (2 : ℝ) - 1 = 1 by norm_num] at hpt
  set x := F64.add (F64.add a b) (lit 1.0) with hx
  clear_value x
  obtain ⟨N, hN⟩ : ∃ N, N = 2 ^ (a.rv + b.rv + 1) * Real.Gamma (a.rv + 1) * Real.Gamma (b.rv + 1) := ⟨_, rfl⟩
  rw [← hN] at nN mN ⊢
  obtain ⟨s, hs⟩ : ∃ s, s = a.rv + b.rv := ⟨_, rfl⟩
  rw [← hs] at nx hsum hpt hcs hSN ⊢
  have hΔ' := _root_.abs_le.1 nx.2
  have fin : ∀ {z : F64}, Near z (N / Real.Gamma x.rv / x.rv) (3.75e-11 * (N / Real.Gamma x.rv / x.rv)) → x.rv ≠ 0 →
      Near z (N / Real.Gamma (s + 2)) (4e-11 * (N / Real.Gamma (s + 2))) := by
    intro z q2 hx0
    have eG : N / Real.Gamma x.rv / x.rv = N / Real.Gamma (x.rv + 1) := by
      rw [Real.Gamma_add_one hx0, div_div, mul_comm]
    rw [eG] at q2
    exact near_div_perturb (τ := 11000 * U) q2 mN.pos (Real.Gamma_pos_of_pos (by linarith)) hpt (by linarith) (by positivity) (by norm_num)
      (by unfold U; norm_num)
  rcases hcs with hc | hc
  · have hxlo : 1 / 2 ^ 10 ≤ x.rv := by
      have : (1 : ℝ) / 2 ^ 10 ≤ 1 / 1000 - 340 * (1 / 10 ^ 15) := by norm_num
      linarith
    have hxhi : x.rv ≤ 167 := by linarith
    obtain ⟨g1, g2⟩ := C59_gamma hL hP nx.1 (le_trans (by norm_num) hxlo) (hxhi.trans (by norm_num))
    have hxp : 0 < x.rv := lt_of_lt_of_le (by positivity) hxlo
    have mG := gamma_mag' hxlo hxhi
    have q1 := near_div_rel (d := 3.73e-11) nN ⟨g1, g2⟩ mN.pos mG.pos (mN.div mG) (by norm_num) (by norm_num) (by norm_num) (by norm_num) (by norm_num)
      (by norm_num) (by unfold U; norm_num)
    have mx : Mag x.rv 10 8 := ⟨hxlo, hxhi.trans (by norm_num)⟩
    have q2 := near_div_rel (d := 3.75e-11) (δ := 0) q1 (by rw [zero_mul]; exact near_self nx.1) (mN.div mG).pos hxp ((mN.div mG).div mx) (by norm_num)
      (by norm_num) (by norm_num) le_rfl (by norm_num) (by norm_num) (by unfold U; norm_num)
    exact fin q2 hxp.ne'
  · have hxlo : 1 / 2 ^ 10 ≤ -x.rv := by
      have : (1 : ℝ) / 2 ^ 10 ≤ 1 / 1000 - 340 * (1 / 10 ^ 15) := by norm_num
      linarith
    have hxlo' : 1 / 2 ^ 10 ≤ x.rv + 1 := by
      have : (1 : ℝ) / 2 ^ 10 ≤ 1 / 1000 - 340 * (1 / 10 ^ 15) := by norm_num
      linarith
    have h10 : (1 : ℝ) / 1100 ≤ 1 / 2 ^ 10 := by norm_num
    obtain ⟨g1, g2⟩ := C59_gamma_neg (hSN (by linarith)) hP nx.1 (by change -1 + 1 / 1100 ≤ x.rv; linarith) (by change x.rv ≤ -1 / 1100; linarith)
    change |(gamma x).rv - Real.Gamma x.rv| ≤ 1.2e-11 * |Real.Gamma x.rv| at g2
    have hxn : x.rv < 0 := by linarith [show (0 : ℝ) < 1 / 2 ^ 10 by positivity]
    have ex : |x.rv| = -x.rv := abs_of_neg hxn
    have mx : Mag (|x.rv|) 10 0 := ⟨by rw [ex]; exact hxlo, by rw [ex]; norm_num; linarith [show (0 : ℝ) < 1 / 2 ^ 10 by positivity]⟩
    have mG1 : Mag (Real.Gamma (x.rv + 1)) 1 11 := by
      refine ⟨(gamma_mag' hxlo' (by linarith)).1, ?_⟩
      refine (Gamma_le_factorial (δ := 1 / 2 ^ 10) (k := 1) hxlo' (by positivity) (by norm_num) le_rfl (by push_cast; linarith)).trans ?_
      norm_num
    have eG : |Real.Gamma x.rv| = Real.Gamma (x.rv + 1) / |x.rv| := by
      rw [eq_div_iff mx.pos.ne', ← abs_mul, mul_comm, ← Real.Gamma_add_one hxn.ne, abs_of_pos mG1.pos]
    have mG : Mag (|Real.Gamma x.rv|) 1 850 := by
      rw [eG]; exact (mG1.div mx).mono (by norm_num) (by norm_num)
    have eN : |N| = N := abs_of_pos mN.pos
    have hGne : Real.Gamma x.rv ≠ 0 := abs_pos.1 mG.pos
    have mq := mN.div mG
    have q1 := near_div_rel' (d := 3.73e-11) (by rw [eN]; exact nN) ⟨g1, g2⟩ hGne (by rw [eN]; exact mq) (by norm_num) (by norm_num) (by norm_num) (by norm_num)
      (by norm_num) (by norm_num) (by unfold U; norm_num)
    have eq : |N / Real.Gamma x.rv| = N / |Real.Gamma x.rv| := by rw [abs_div, eN]
    have q2 := near_div_rel' (d := 3.75e-11) (δ := 0) q1 (by rw [zero_mul]; exact near_self nx.1) hxn.ne (by rw [eq]; exact mq.div mx) (by norm_num)
      (by norm_num) (by norm_num) le_rfl (by norm_num) (by norm_num) (by unfold U; norm_num)
    have hpos : 0 ≤ N / Real.Gamma x.rv / x.rv := by
      rw [div_div, ← mul_comm x.rv, ← Real.Gamma_add_one hxn.ne]
      exact div_nonneg mN.pos.le mG1.pos.le
    rw [abs_of_nonneg hpos] at q2
    exact fin q2 hxn.ne

theorem jac_weightOne (hL : AccurateTrig L) (hP : AccuratePow L) (h : JacOk a b μ) :
    Near (GaussJacobi.weightOne a b) (2 ^ (a.rv + b.rv + 1) * Real.Gamma (a.rv + 1) * Real.Gamma (b.rv + 1) / Real.Gamma (a.rv + b.rv + 2))
      (4e-11 * (2 ^ (a.rv + b.rv + 1) * Real.Gamma (a.rv + 1) * Real.Gamma (b.rv + 1) / Real.Gamma (a.rv + b.rv + 2))) := by
  have hU := U_pos
  have hU1 := U_le_eta
  have ha2 := h.a2
  have hb2 := h.b2
  have hs2 := h.s2
  have hsum := h.t
  have hμ0 := h.μ0
  obtain ⟨nN, mN⟩ := jac_num hL hP h
  have eM : GaussJacobi.weightOne a b = F64.div (F64.mul (F64.mul (FloatOps.pow (lit 2.0 : F64) (F64.add (F64.add a b) (lit 1.0)))
      (gamma (F64.add a (lit 1.0)))) (gamma (F64.add b (lit 1.0)))) (gamma (F64.add (F64.add a b) (lit 2.0))) := rfl
  rw [eM]
  have nx := jac_sum_abs h lit_two_isNat (by norm_num) le_rfl
  have hpt := jac_perturb h lit_two_isNat (by norm_num) le_rfl
  push_cast at nx hpt
  rw [_root_.sub_self, add_zero] at hpt
  obtain ⟨N, hN⟩ : ∃ N, N = 2 ^ (a.rv + b.rv + 1) * Real.Gamma (a.rv + 1) * Real.Gamma (b.rv + 1) := ⟨_, rfl⟩
  rw [← hN] at nN mN ⊢
  set x := F64.add (F64.add a b) (lit 2.0) with hx
  clear_value x
  obtain ⟨s, hs⟩ : ∃ s, s = a.rv + b.rv := ⟨_, rfl⟩
  rw [← hs] at nx hsum hpt ⊢
  have hΔ' := _root_.abs_le.1 nx.2
  have hxlo : 1 / 2 ^ 10 ≤ x.rv := by
    have : (1 : ℝ) / 2 ^ 10 ≤ 1 / 1000 - 340 * (1 / 10 ^ 15) := by norm_num
    linarith
  have hxhi : x.rv ≤ 167 := by linarith
  obtain ⟨g1, g2⟩ := C59_gamma hL hP nx.1 (le_trans (by norm_num) hxlo) (hxhi.trans (by norm_num))
  have mG := gamma_mag' hxlo hxhi
  have q1 := near_div_rel (d := 3.73e-11) nN ⟨g1, g2⟩ mN.pos mG.pos (mN.div mG) (by norm_num) (by norm_num) (by norm_num) (by norm_num) (by norm_num) (by norm_num)
    (by unfold U; norm_num)
  change Near _ (N / Real.Gamma x.rv) (3.73e-11 * (N / Real.Gamma x.rv)) at q1
  exact near_div_perturb (τ := 11000 * U) q1 mN.pos (Real.Gamma_pos_of_pos (by linarith)) hpt (by linarith) (by positivity) (by norm_num)
    (by unfold U; norm_num)

end
end GaussQuad.F64
