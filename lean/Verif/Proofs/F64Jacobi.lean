import Verif.Proofs.F64Laguerre

/-! The matrix of the Jacobi rule in binary64. -/

set_option exponentiation.threshold 3000

namespace GaussQuad.F64
open FloatOps Spec MeasureTheory Polynomial Props

/-- magnitude of a positive number -/
def Mag (x : ℝ) (p q : ℕ) : Prop := 1 / 2 ^ p ≤ x ∧ x ≤ 2 ^ q

theorem Mag.pos {x : ℝ} {p q : ℕ} (h : Mag x p q) : 0 < x := lt_of_lt_of_le (by positivity) h.1

theorem Mag.mul {x y : ℝ} {p q p' q' : ℕ} (h : Mag x p q) (h' : Mag y p' q') : Mag (x * y) (p + p') (q + q') := by
  have hy := h'.pos
  have hx := h.pos
  constructor
  · rw [pow_add, one_div_mul_one_div_rev .. |>.symm.trans (mul_comm _ _)]
    exact mul_le_mul h.1 h'.1 (by positivity) hx.le
  · rw [pow_add]
    exact mul_le_mul h.2 h'.2 hy.le (by positivity)

theorem Mag.inv {x : ℝ} {p q : ℕ} (h : Mag x p q) : Mag x⁻¹ q p := by
  have hx := h.pos
  constructor
  · rw [one_div]; exact inv_anti₀ hx h.2
  · have := inv_anti₀ (by positivity) h.1
    rwa [one_div, inv_inv] at this

theorem Mag.div {x y : ℝ} {p q p' q' : ℕ} (h : Mag x p q) (h' : Mag y p' q') : Mag (x / y) (p + q') (q + p') := by
  rw [div_eq_mul_inv]; exact h.mul h'.inv

theorem Mag.sqrt {x : ℝ} {p q : ℕ} (h : Mag x (p * 2) (q * 2)) : Mag (Real.sqrt x) p q := by
  constructor
  · refine Real.le_sqrt_of_sq_le ?_
    rw [div_pow, one_pow, ← pow_mul]; exact h.1
  · refine Real.sqrt_le_iff.2 ⟨by positivity, ?_⟩
    rw [← pow_mul]; exact h.2

theorem Mag.mono {x : ℝ} {p q p' q' : ℕ} (h : Mag x p q) (hp : p ≤ p') (hq : q ≤ q') : Mag x p' q' :=
  ⟨(one_div_le_one_div_of_le (by positivity) (pow_le_pow_right₀ (by norm_num) hp)).trans h.1, h.2.trans (pow_le_pow_right₀ (by norm_num) hq)⟩

theorem Mag.lo {x : ℝ} {p q : ℕ} (h : Mag x p q) (hp : p ≤ 900) : 1 / 2 ^ 900 ≤ |x| := by
  rw [abs_of_pos h.pos]; exact (h.mono hp le_rfl).1

theorem Mag.hi {x : ℝ} {p q : ℕ} (h : Mag x p q) (hq : q ≤ 1015) : |x| ≤ 2 ^ 1015 := by
  rw [abs_of_pos h.pos]; exact (h.mono le_rfl hq).2

/-- a sum with an exact term not below `-1`, away from cancellation -/
theorem Rel.add_exact {x y : F64} {X c ν : ℝ} (hx : Rel x X c) (hX : 0 ≤ X) (hX1 : X ≤ 10 ^ 14) (hy : y.isFinite = true) (hy0 : -1 ≤ y.rv) (hy1 : y.rv ≤ 1000)
    (hν0 : 1 / 1000 ≤ ν) (hν1 : ν ≤ 1) (hν : ν ≤ X + y.rv) (hc0 : 0 ≤ c) (hc : c ≤ 100) {d : ℝ} (hd : c * (1 + 1 / ν) + 1.001 ≤ d) :
    Rel (F64.add x y) (X + y.rv) d := by
  have hU := U_pos
  have hU1 := U_le_eta
  have hνp : 0 < ν := by linarith
  have hs : 0 < X + y.rv := by linarith
  have hXs : X ≤ (1 + 1 / ν) * (X + y.rv) := by
    have : 1 ≤ 1 / ν * (X + y.rv) := by rw [one_div_mul_eq_div, le_div_iff₀ hνp]; linarith
    linarith
  have hn := hx.near
  rw [abs_of_nonneg hX] at hn
  have hk : c * U * X ≤ c * U * ((1 + 1 / ν) * (X + y.rv)) := mul_le_mul_of_nonneg_left hXs (by positivity)
  have h1000 : 1 / ν ≤ 1000 := by rw [div_le_iff₀ hνp]; linarith
  have hsm : c * U * (1 + 1 / ν) ≤ 0.001 := by
    calc c * U * (1 + 1 / ν) ≤ 100 * (1 / 10 ^ 15) * (1 + 1000) := by
          have : 0 < 1 / ν := by positivity
          gcongr
      _ ≤ _ := by norm_num
  have hsm2 : c * U * (1 + 1 / ν) * (X + y.rv) ≤ 0.001 * (X + y.rv) := mul_le_mul_of_nonneg_right hsm hs.le
  have := hn.add (near_self hy) (A := 1.001 * (X + y.rv)) (by
    rw [abs_of_pos hs]; linarith) (by
    exact le_trans (by linarith : _ ≤ (10 : ℝ) ^ 15) (by norm_num))
  refine this.rel ?_
  rw [abs_of_pos hs]
  have h3 : (c * (1 + 1 / ν) + 1.001) * (U * (X + y.rv)) ≤ d * (U * (X + y.rv)) := mul_le_mul_of_nonneg_right hd (by positivity)
  linarith

theorem neg_finite {y : F64} (h : y.isFinite = true) : y.neg.isFinite = true ∧ y.neg.rv = -y.rv := by
  have := (near_self h).neg
  refine ⟨this.1, ?_⟩
  have h2 := this.2
  rw [abs_nonpos_iff] at h2
  linarith

/-- quotients -/
theorem Near.div {x y : F64} {r s ε δ : ℝ} (hx : Near x r ε) (hy : Near y s (δ * |s|)) (hs : s ≠ 0) (hδ0 : 0 ≤ δ) (hδ : δ ≤ 0.001)
    (hb : |r| / |s| + ε / |s| ≤ 2 ^ 1017) :
    Near (F64.div x y) (r / s) ((1.002 + 1.002 * U) * (ε / |s|) + (1.002 * δ + 1.003 * U) * (|r| / |s|) + 1 / 2 ^ 1075) := by
  have hU := U_pos
  have hU1 := U_le_eta
  have hε : 0 ≤ ε := (abs_nonneg _).trans hx.2
  have hsp := abs_pos.2 hs
  have hylo : (1 - δ) * |s| ≤ |y.rv| := by
    have h1 := abs_sub_abs_le_abs_sub s y.rv
    rw [abs_sub_comm] at h1
    linarith [hy.2]
  have hyp : 0 < |y.rv| := lt_of_lt_of_le (mul_pos (by linarith) hsp) hylo
  have hy0 : y.rv ≠ 0 := abs_pos.1 hyp
  have hyv : y.val ≠ 0 := by
    intro h; apply hy0; rw [rv, h]; simp
  have hz : y.isZero = false := by
    simp only [isZero, decide_eq_false_iff_not]
    intro h; exact hyv (val_eq_zero_iff.2 h)
  have e : ((x.val / y.val : ℚ) : ℝ) = x.rv / y.rv := by rw [rv, rv]; push_cast; rfl
  have hinv : 1 / |y.rv| ≤ 1.002 / |s| := by
    rw [div_le_div_iff₀ hyp hsp]
    have : (1 - δ) * |s| * 1.002 ≥ 1 * |s| := by
      rw [mul_right_comm]
      exact mul_le_mul_of_nonneg_right (by linarith) hsp.le
    linarith
  set e1 := 1.002 * (ε / |s|) + 1.002 * δ * (|r| / |s|) with he1
  have hq0 : 0 ≤ |r| / |s| := by positivity
  have hq1 : 0 ≤ ε / |s| := by positivity
  have hmain : |x.rv / y.rv - r / s| ≤ e1 := by
    have h1 : x.rv / y.rv - r / s = (x.rv - r) / y.rv + r * (s - y.rv) / (s * y.rv) := by field_simp; ring
    rw [h1]
    refine (abs_add_le _ _).trans (add_le_add ?_ ?_)
    · rw [abs_div]
      calc |x.rv - r| / |y.rv| ≤ ε / |y.rv| := div_le_div_of_nonneg_right hx.2 hyp.le
        _ = ε * (1 / |y.rv|) := by ring
        _ ≤ ε * (1.002 / |s|) := mul_le_mul_of_nonneg_left hinv hε
        _ = _ := by ring
    · rw [abs_div, abs_mul, abs_mul, abs_sub_comm]
      calc |r| * |y.rv - s| / (|s| * |y.rv|) ≤ |r| * (δ * |s|) / (|s| * |y.rv|) :=
            div_le_div_of_nonneg_right (mul_le_mul_of_nonneg_left hy.2 (abs_nonneg _)) (by positivity)
        _ = |r| * δ * (1 / |y.rv|) := by field_simp
        _ ≤ |r| * δ * (1.002 / |s|) := mul_le_mul_of_nonneg_left hinv (by positivity)
        _ = _ := by ring
  have hδq : δ * (|r| / |s|) ≤ 0.001 * (|r| / |s|) := mul_le_mul_of_nonneg_right hδ hq0
  have habs : |x.rv / y.rv| ≤ 1.0011 * (|r| / |s|) + 1.002 * (ε / |s|) := by
    have h1 := abs_sub_abs_le_abs_sub (x.rv / y.rv) (r / s)
    rw [abs_div r s] at h1
    linarith
  have hfin : |((x.val / y.val : ℚ) : ℝ)| ≤ 2 ^ 1023 := by
    rw [e]
    refine habs.trans (le_trans (by linarith : _ ≤ 2 * (2 : ℝ) ^ 1017) (by norm_num))
  have hr := round_near (s := (x.sign != y.sign)) hfin
  rw [← div_finite hx.1 hy.1 hz, e] at hr
  have := hr.shift hmain
  refine this.mono ?_
  have h5 : U * |x.rv / y.rv| ≤ U * (1.0011 * (|r| / |s|) + 1.002 * (ε / |s|)) := mul_le_mul_of_nonneg_left habs hU.le
  have h6 : 0 ≤ U * (|r| / |s|) := by positivity
  linarith

section
variable [L : Libm]

/-- hypotheses on the parameters: accepted by the constructor, not too large, and with a sum away from `-1` and `-2` -/
structure JacOk (a b : F64) (μ : ℝ) : Prop where
  fa : a.isFinite = true
  fb : b.isFinite = true
  a1 : (-1 : ℚ) < a.val
  b1 : (-1 : ℚ) < b.val
  s2 : a.rv + b.rv ≤ 164
  num : 2 ^ (a.rv + b.rv + 1) * Real.Gamma (a.rv + 1) * Real.Gamma (b.rv + 1) ≤ 2 ^ 1000
  μ0 : 1 / 1000 ≤ μ
  μ1 : μ ≤ 1
  s : μ ≤ |a.rv + b.rv + 1|
  t : μ ≤ a.rv + b.rv + 2

variable {a b : F64} {μ : ℝ}

omit L in
theorem JacOk.ga (h : JacOk a b μ) : (-1 + 1 / 2 ^ 55 : ℝ) ≤ a.rv := param_gap h.fa h.a1
omit L in
theorem JacOk.gb (h : JacOk a b μ) : (-1 + 1 / 2 ^ 55 : ℝ) ≤ b.rv := param_gap h.fb h.b1
omit L in
theorem JacOk.a2 (h : JacOk a b μ) : a.rv ≤ 165 := by linarith [h.s2, h.gb, show (0 : ℝ) < 1 / 2 ^ 55 by positivity]
omit L in
theorem JacOk.b2 (h : JacOk a b μ) : b.rv ≤ 165 := by linarith [h.s2, h.ga, show (0 : ℝ) < 1 / 2 ^ 55 by positivity]
omit L in
theorem JacOk.symm (h : JacOk a b μ) : JacOk b a μ := ⟨h.fb, h.fa, h.b1, h.a1, by linarith [h.s2],
  by have := h.num; rwa [mul_right_comm, add_comm a.rv] at this, h.μ0, h.μ1,
  by rw [add_comm b.rv]; exact h.s, by linarith [h.t]⟩
omit L in
theorem JacOk.cases (h : JacOk a b μ) : μ ≤ a.rv + b.rv + 1 ∨ a.rv + b.rv + 1 ≤ -μ := by
  rcases le_abs.1 h.s with h | h
  · exact Or.inl h
  · exact Or.inr (by linarith)
omit L in
theorem JacOk.ne (h : JacOk a b μ) : a.rv + b.rv ≠ -1 := fun e => by
  have h1 := h.s
  have h2 := h.μ0
  rw [e] at h1
  norm_num at h1
  linarith
omit L in
theorem JacOk.inv (h : JacOk a b μ) : 1 ≤ 1 / μ ∧ 1 / μ ≤ 1000 ∧ 1 / μ * μ = 1 := by
  have hμ0 := h.μ0
  have hμ1 := h.μ1
  have hμp : 0 < μ := by linarith
  exact ⟨by rw [le_div_iff₀ hμp]; linarith, by rw [div_le_iff₀ hμp]; linarith, by field_simp⟩

theorem lit_neg_one : (lit 1.0 : F64).neg.isFinite = true ∧ (lit 1.0 : F64).neg.rv = -1 := by
  have := neg_finite lit_one_isNat.1
  refine ⟨this.1, this.2.trans ?_⟩
  rw [rv, lit_one_isNat.2]; simp

theorem lit_one_rv : (lit 1.0 : F64).rv = 1 := by rw [rv, lit_one_isNat.2]; simp
theorem lit_two_rv : (lit 2.0 : F64).rv = 2 := by rw [rv, lit_two_isNat.2]; simp

/-- the sums that occur in the coefficients -/
theorem jac_denom (h : JacOk a b μ) {k : ℕ} (hk : 1 ≤ k) (hk1 : k ≤ 10 ^ 12) (hc : μ ≤ k + a.rv + b.rv) {x : F64} (hx : IsNat x k) :
    Rel (F64.add (F64.add (F64.mul (lit 2.0 : F64) x) a) b) (2 * k + a.rv + b.rv) 3.01 ∧ Mag (2 * k + a.rv + b.rv) 0 45 := by
  have h2 : IsNat (F64.mul (lit 2.0 : F64) x) (2 * k) := lit_two_isNat.mul hx (by omega)
  have h3 := nat_add_param h2 (by omega) (by omega) h.fa h.a1 (by linarith [h.a2])
  push_cast at h3
  have hk' : (1 : ℝ) ≤ k := by exact_mod_cast hk
  have hk1' : (k : ℝ) ≤ 10 ^ 12 := by exact_mod_cast hk1
  have ha2 := h.a2
  have hb2 := h.b2
  have hga := h.ga
  have hgb := h.gb
  have hμ := h.μ0
  have h55 : (0 : ℝ) < 1 / 2 ^ 55 := by positivity
  refine ⟨h3.add_exact (ν := 1) (by linarith) (by linarith) h.fb (by linarith) (by linarith) (by norm_num) le_rfl (by linarith) (by norm_num) (by norm_num)
    (by norm_num), ?_, ?_⟩
  · norm_num; linarith
  · exact le_trans (by linarith : _ ≤ (10 : ℝ) ^ 13) (by norm_num)

theorem jac_offDiag_pos (hs : AccurateSqrt L) (h : JacOk a b μ) {k : ℕ} (hk : k < 10 ^ 12) (hsum : μ ≤ ((k + 1 : ℕ) : ℝ) + a.rv + b.rv) :
    Rel (GaussJacobi.offDiag a b k) (jacB a.rv b.rv k) (20 / μ) ∧ Mag (jacB a.rv b.rv k) 200 100 := by
  have hμ0 := h.μ0
  have hμ1 := h.μ1
  have hμp : 0 < μ := by linarith
  have hi : 1 ≤ 1 / μ := by rw [le_div_iff₀ hμp]; linarith
  have hi2 : 1 / μ ≤ 1000 := by rw [div_le_iff₀ hμp]; linarith
  have hN : IsNat (F64.add (ofNat k : F64) (lit 1.0 : F64)) (k + 1) := (ofNat_isNat (by omega)).add lit_one_isNat (by omega)
  obtain ⟨rd, md⟩ := jac_denom h (k := k + 1) (by omega) (by omega) hsum hN
  have ra := nat_add_param hN (by omega) (by omega) h.fa h.a1 (by linarith [h.a2])
  have rb := nat_add_param hN (by omega) (by omega) h.fb h.b1 (by linarith [h.b2])
  have rj := hN.rel
  have hk' : (k : ℝ) + 1 ≤ 10 ^ 12 := by exact_mod_cast hk
  have hk0 : (0 : ℝ) ≤ k := by positivity
  have ha2 := h.a2
  have hb2 := h.b2
  have hga := h.ga
  have hgb := h.gb
  have h55 : (0 : ℝ) < 1 / 2 ^ 55 := by positivity
  push_cast at rd md ra rb rj hsum
  set α := a.rv
  set β := b.rv
  have rs := ra.add_exact (y := b) (ν := μ) (d := 2.001 + 1 / μ) (by linarith) (by linarith) h.fb (by linarith) (by linarith) hμ0 hμ1
    (by linarith) (by norm_num) (by norm_num) (by linarith)
  have rp := rd.add_exact (y := (lit 1.0 : F64)) (ν := 1) (d := 7.03) md.pos.le (by linarith) lit_one_isNat.1 (by rw [lit_one_rv]; norm_num)
    (by rw [lit_one_rv]; norm_num) (by norm_num) le_rfl (by rw [lit_one_rv]; linarith) (by norm_num) (by norm_num) (by norm_num)
  have rm := rd.add_exact (y := (lit 1.0 : F64).neg) (ν := μ) (d := 4.02 + 3.01 * (1 / μ)) md.pos.le (by linarith) lit_neg_one.1 (by rw [lit_neg_one.2])
    (by rw [lit_neg_one.2]; norm_num) hμ0 hμ1 (by rw [lit_neg_one.2]; linarith) (by norm_num) (by norm_num) (by linarith)
  rw [lit_one_rv] at rp
  rw [lit_neg_one.2, ← sub_eq_add_neg] at rm
  have mj : Mag ((k : ℝ) + 1) 0 44 := ⟨by norm_num, le_trans hk' (by norm_num)⟩
  have ma : Mag ((k : ℝ) + 1 + α) 55 44 := ⟨by linarith, le_trans (by linarith : _ ≤ (10 : ℝ) ^ 13) (by norm_num)⟩
  have mb : Mag ((k : ℝ) + 1 + β) 55 44 := ⟨by linarith, le_trans (by linarith : _ ≤ (10 : ℝ) ^ 13) (by norm_num)⟩
  have ms : Mag ((k : ℝ) + 1 + α + β) 10 44 := ⟨le_trans (by norm_num : _ ≤ (1 : ℝ) / 1000) (by linarith),
    le_trans (by linarith : _ ≤ (10 : ℝ) ^ 13) (by norm_num)⟩
  have mp : Mag (2 * ((k : ℝ) + 1) + α + β + 1) 0 45 := ⟨by norm_num; linarith, le_trans (by linarith : _ ≤ (10 : ℝ) ^ 13) (by norm_num)⟩
  have mm : Mag (2 * ((k : ℝ) + 1) + α + β - 1) 10 45 := ⟨le_trans (by norm_num : _ ≤ (1 : ℝ) / 1000) (by linarith),
    le_trans (by linarith : _ ≤ (10 : ℝ) ^ 13) (by norm_num)⟩
  have m2 : Mag (2 : ℝ) 0 1 := ⟨by norm_num, by norm_num⟩
  have n1 := rj.mul ra (d := 2.001) ((mj.mul ma).lo (by norm_num)) ((mj.mul ma).hi (by norm_num)) le_rfl (by norm_num) (by norm_num) (by norm_num) (by norm_num)
  have n2 := n1.mul rb (d := 4.002) (((mj.mul ma).mul mb).lo (by norm_num)) (((mj.mul ma).mul mb).hi (by norm_num)) (by norm_num) (by norm_num) (by norm_num)
    (by norm_num) (by norm_num)
  have n3 := n2.mul rs (d := 7.01 + 1 / μ) ((((mj.mul ma).mul mb).mul ms).lo (by norm_num)) ((((mj.mul ma).mul mb).mul ms).hi (by norm_num)) (by norm_num)
    (by linarith) (by norm_num) (by linarith) (by linarith)
  have d1 := rp.mul rm (d := 12.06 + 3.01 * (1 / μ)) ((mp.mul mm).lo (by norm_num)) ((mp.mul mm).hi (by norm_num)) (by norm_num) (by linarith) (by norm_num)
    (by linarith) (by linarith)
  have mq := (((mj.mul ma).mul mb).mul ms).div (mp.mul mm)
  have q := n3.div d1 (d := 20.1 + 4.01 * (1 / μ)) (mp.mul mm).pos.ne' (mq.lo (by norm_num)) (mq.hi (by norm_num)) (by linarith) (by linarith) (by linarith)
    (by linarith) (by linarith)
  have sq := sqrt_rel hs q mq.pos (by linarith) (by linarith)
  have msq : Mag (Real.sqrt _) 105 93 := (mq.mono (by norm_num : _ ≤ 105 * 2) (by norm_num : _ ≤ 93 * 2)).sqrt
  have t := lit_two_isNat.rel.div rd (d := 4.02) md.pos.ne' (by push_cast; exact (m2.div md).lo (by norm_num)) (by push_cast; exact (m2.div md).hi (by norm_num))
    le_rfl (by norm_num) (by norm_num) (by norm_num) (by norm_num)
  push_cast at t
  have mf := (m2.div md).mul msq
  have f := t.mul sq (d := 20 / μ) (mf.lo (by norm_num)) (mf.hi (by norm_num)) (by norm_num) (by linarith) (by norm_num) (by linarith) (by
    rw [show (20 : ℝ) / μ = 20 * (1 / μ) by ring]; linarith)
  exact ⟨f, mf.mono (by norm_num) (by norm_num)⟩

/-- the sums in the coefficients with index 1 when the parameters add up to less than `-1` -/
theorem jac_denom_neg (h : JacOk a b μ) (hn : a.rv + b.rv + 1 ≤ -μ) {x : F64} (hx : IsNat x 1) :
    Near (F64.add (F64.add (F64.mul (lit 2.0 : F64) x) a) b) (2 + a.rv + b.rv) (3.01 * U) := by
  have hU := U_pos
  have hU1 := U_le_eta
  have hga := h.ga
  have hgb := h.gb
  have hμ0 := h.μ0
  have ht := h.t
  have h55 : (0 : ℝ) < 1 / 2 ^ 55 := by positivity
  have h2 : IsNat (F64.mul (lit 2.0 : F64) x) 2 := lit_two_isNat.mul hx (by norm_num)
  have h3 := (nat_add_param h2 (by norm_num) (by norm_num) h.fa h.a1 (by linarith [h.a2])).near
  push_cast at h3
  rw [abs_of_pos (by linarith : 0 < 2 + a.rv)] at h3
  have hm : 1 * U * (2 + a.rv) ≤ 1 * U * 2 := mul_le_mul_of_nonneg_left (by linarith) (by linarith)
  have := h3.add (near_self h.fb) (A := 1.001) (by rw [abs_of_pos (by linarith)]; linarith) (by norm_num)
  exact this.mono (by linarith)

theorem jac_offDiag_neg (hs : AccurateSqrt L) (h : JacOk a b μ) (hn : a.rv + b.rv + 1 ≤ -μ) :
    Rel (GaussJacobi.offDiag a b 0) (jacB a.rv b.rv 0) (20 / μ) ∧ Mag (jacB a.rv b.rv 0) 200 100 := by
  have hU := U_pos
  have hU1 := U_le_eta
  have hμ0 := h.μ0
  have hμ1 := h.μ1
  have hμp : 0 < μ := by linarith
  obtain ⟨hi, hi2, hiμ⟩ := h.inv
  have hga := h.ga
  have hgb := h.gb
  have ht := h.t
  have h55 : (0 : ℝ) < 1 / 2 ^ 55 := by positivity
  have hN : IsNat (F64.add (ofNat 0 : F64) (lit 1.0 : F64)) 1 := (ofNat_isNat (m := 0) (by norm_num)).add lit_one_isNat (by norm_num)
  have nd := jac_denom_neg h hn hN
  have ra := nat_add_param hN (by norm_num) (by norm_num) h.fa h.a1 (by linarith [h.a2])
  have rb := nat_add_param hN (by norm_num) (by norm_num) h.fb h.b1 (by linarith [h.b2])
  have rj := hN.rel
  push_cast at ra rb rj
  set α := a.rv
  set β := b.rv
  -- an absolute error bound for a number of size at least `μ`
  have torel : ∀ {x : F64} {r c : ℝ}, 0 ≤ c → Near x r (c * U) → μ ≤ |r| → Rel x r (c * (1 / μ)) := by
    intro x r c hc hx hr
    refine hx.rel ?_
    calc c * U = c * (1 / μ) * U * μ := by rw [show c * (1 / μ) * U * μ = c * U * (1 / μ * μ) by ring, hiμ, mul_one]
      _ ≤ _ := mul_le_mul_of_nonneg_left hr (by positivity)
  have es : |1 + α + β| = -(1 + α + β) := abs_of_neg (by linarith)
  have ed : |2 + α + β| = 2 + α + β := abs_of_pos (by linarith)
  have em : |2 + α + β - 1| = -(1 + α + β) := by rw [abs_of_neg (by linarith)]; ring
  have rs : Rel (F64.add (F64.add (F64.add (ofNat 0 : F64) (lit 1.0 : F64)) a) b) (1 + α + β) (2.01 * (1 / μ)) := by
    have n := ra.near
    rw [abs_of_pos (by linarith : 0 < 1 + α)] at n
    have hm : 1 * U * (1 + α) ≤ 1 * U * 1 := mul_le_mul_of_nonneg_left (by linarith) (by linarith)
    have := n.add (near_self h.fb) (A := 1.001) (by rw [es]; linarith) (by norm_num)
    exact torel (by norm_num) (this.mono (by linarith)) (by rw [es]; linarith)
  have rd := torel (by norm_num) nd (by rw [ed]; linarith)
  have n1' := near_self (lit_one_isNat (L := L)).1
  rw [lit_one_rv] at n1'
  have rp : Rel (F64.add (F64.add (F64.add (F64.mul (lit 2.0 : F64) (F64.add (ofNat 0 : F64) (lit 1.0 : F64))) a) b) (lit 1.0 : F64)) (2 + α + β + 1) 5.02 := by
    have := nd.add n1' (A := 2.0001) (by rw [abs_of_pos (by linarith)]; linarith) (by norm_num)
    refine this.rel ?_
    rw [abs_of_pos (by linarith)]
    calc 3.01 * U + 0 + U * 2.0001 ≤ 5.02 * U * 1 := by linarith
      _ ≤ _ := mul_le_mul_of_nonneg_left (by linarith) (by positivity)
  have rm : Rel (F64.sub (F64.add (F64.add (F64.mul (lit 2.0 : F64) (F64.add (ofNat 0 : F64) (lit 1.0 : F64))) a) b) (lit 1.0 : F64)) (2 + α + β - 1) (4.02 * (1 / μ)) := by
    have := nd.sub n1' (A := 1.0001) (by rw [em]; linarith) (by norm_num)
    exact torel (by norm_num) (this.mono (by linarith)) (by rw [em]; linarith)
  have mj : Mag (1 : ℝ) 0 0 := ⟨by norm_num, by norm_num⟩
  have ma : Mag (1 + α) 55 0 := ⟨by linarith, by norm_num; linarith⟩
  have mb : Mag (1 + β) 55 0 := ⟨by linarith, by norm_num; linarith⟩
  have ms : Mag (-(1 + α + β)) 10 0 := ⟨le_trans (by norm_num : _ ≤ (1 : ℝ) / 1000) (by linarith), by norm_num; linarith⟩
  have md : Mag (2 + α + β) 10 0 := ⟨le_trans (by norm_num : _ ≤ (1 : ℝ) / 1000) (by linarith), by norm_num; linarith⟩
  have mp : Mag (2 + α + β + 1) 0 1 := ⟨by norm_num; linarith, by norm_num; linarith⟩
  have mm : Mag (-(2 + α + β - 1)) 10 0 := ⟨le_trans (by norm_num : _ ≤ (1 : ℝ) / 1000) (by linarith), by norm_num; linarith⟩
  have m2 : Mag (2 : ℝ) 0 1 := ⟨by norm_num, by norm_num⟩
  have n1 := rj.mul ra (d := 2.001) ((mj.mul ma).lo (by norm_num)) ((mj.mul ma).hi (by norm_num)) le_rfl (by norm_num) (by norm_num) (by norm_num) (by norm_num)
  have n2 := n1.mul rb (d := 4.002) (((mj.mul ma).mul mb).lo (by norm_num)) (((mj.mul ma).mul mb).hi (by norm_num)) (by norm_num) (by norm_num) (by norm_num)
    (by norm_num) (by norm_num)
  have mN := ((mj.mul ma).mul mb).mul ms
  have n3 := n2.mul rs (d := 5.01 + 2.01 * (1 / μ)) (by rw [← abs_neg, ← mul_neg]; exact mN.lo (by norm_num))
    (by rw [← abs_neg, ← mul_neg]; exact mN.hi (by norm_num)) (by norm_num) (by linarith) (by norm_num) (by linarith) (by linarith)
  have mD := mp.mul mm
  have d1 := rp.mul rm (d := 6.03 + 4.02 * (1 / μ)) (by rw [← abs_neg, ← mul_neg]; exact mD.lo (by norm_num))
    (by rw [← abs_neg, ← mul_neg]; exact mD.hi (by norm_num)) (by norm_num) (by linarith) (by norm_num) (by linarith) (by linarith)
  have mq := mN.div mD
  have eq : 1 * (1 + α) * (1 + β) * -(1 + α + β) / ((2 + α + β + 1) * -(2 + α + β - 1)) =
      1 * (1 + α) * (1 + β) * (1 + α + β) / ((2 + α + β + 1) * (2 + α + β - 1)) := by rw [mul_neg, mul_neg, neg_div_neg_eq]
  rw [eq] at mq
  have hne : (2 + α + β + 1) * (2 + α + β - 1) ≠ 0 := by
    have := mD.pos.ne'
    rwa [mul_neg, neg_ne_zero] at this
  have q := n3.div d1 (d := 12.06 + 6.03 * (1 / μ)) hne (mq.lo (by norm_num)) (mq.hi (by norm_num)) (by linarith) (by linarith) (by linarith)
    (by linarith) (by linarith)
  have sq := sqrt_rel hs q mq.pos (by linarith) (by linarith)
  have msq : Mag (Real.sqrt _) 105 10 := (mq.mono (by norm_num : _ ≤ 105 * 2) (by norm_num : _ ≤ 10 * 2)).sqrt
  have t := lit_two_isNat.rel.div rd (d := 1.01 + 3.01 * (1 / μ)) md.pos.ne' (by push_cast; exact (m2.div md).lo (by norm_num))
    (by push_cast; exact (m2.div md).hi (by norm_num)) le_rfl (by linarith) (by norm_num) (by linarith) (by linarith)
  push_cast at t
  have mf := (m2.div md).mul msq
  have f := t.mul sq (d := 20 / μ) (mf.lo (by norm_num)) (mf.hi (by norm_num)) (by linarith) (by linarith) (by linarith) (by linarith) (by
    rw [show (20 : ℝ) / μ = 20 * (1 / μ) by ring]; linarith)
  have ej : jacB α β 0 = 2 / (2 + α + β) * Real.sqrt (1 * (1 + α) * (1 + β) * (1 + α + β) / ((2 + α + β + 1) * (2 + α + β - 1))) := by
    unfold jacB
    rw [Nat.cast_zero, zero_add, mul_one]
  rw [ej]
  exact ⟨f, mf.mono (by norm_num) (by norm_num)⟩

theorem jac_offDiag (hs : AccurateSqrt L) (h : JacOk a b μ) {k : ℕ} (hk : k < 10 ^ 12) :
    Rel (GaussJacobi.offDiag a b k) (jacB a.rv b.rv k) (20 / μ) ∧ Mag (jacB a.rv b.rv k) 200 100 := by
  rcases h.cases with hc | hc
  · refine jac_offDiag_pos hs h hk ?_
    push_cast
    linarith [Nat.cast_nonneg (α := ℝ) k]
  · rcases Nat.eq_zero_or_pos k with rfl | h0
    · exact jac_offDiag_neg hs h hc
    · refine jac_offDiag_pos hs h hk ?_
      have : (1 : ℝ) ≤ k := by exact_mod_cast h0
      push_cast
      linarith [h.t]

theorem jac_diag_zero (h : JacOk a b μ) : Near (GaussJacobi.diag a b 0) (jacA a.rv b.rv 0) (16 * (1 / μ) * U) ∧ |jacA a.rv b.rv 0| ≤ 1 := by
  have hU := U_pos
  have hU1 := U_le_eta
  have ha2 := h.a2
  have hb2 := h.b2
  have hga := h.ga
  have hgb := h.gb
  have hsum := h.t
  obtain ⟨hi, hi2, -⟩ := h.inv
  have hμ1 := h.μ1
  have hμ0 := h.μ0
  have h55 : (0 : ℝ) < 1 / 2 ^ 55 := by positivity
  have r1 := nat_add_param lit_two_isNat (by norm_num) (by norm_num) h.fb h.b1 (by linarith)
  push_cast at r1
  have r2 := r1.add_exact (y := a) (ν := μ) (d := 2.01 + 1 / μ) (by linarith) (by linarith) h.fa (by linarith) (by linarith) hμ0 hμ1
    (by linarith) (by norm_num) (by norm_num) (by linarith)
  have n1 := (near_self h.fb).sub (near_self h.fa) (A := |b.rv - a.rv|) (by simp) (by
    refine (abs_sub _ _).trans ?_
    have h1 : |b.rv| ≤ 200 := _root_.abs_le.2 ⟨by linarith, by linarith⟩
    have h2 : |a.rv| ≤ 200 := _root_.abs_le.2 ⟨by linarith, by linarith⟩
    exact le_trans (by linarith : _ ≤ (1000 : ℝ)) (by norm_num))
  rw [add_zero, zero_add] at n1
  have hs0 : 0 < 2 + b.rv + a.rv := by linarith
  have hle : |b.rv - a.rv| ≤ 2 + b.rv + a.rv := _root_.abs_le.2 ⟨by linarith, by linarith⟩
  have hq : |b.rv - a.rv| / |2 + b.rv + a.rv| ≤ 1 := by rw [abs_of_pos hs0, div_le_one hs0]; exact hle
  have hq0 : 0 ≤ |b.rv - a.rv| / |2 + b.rv + a.rv| := by positivity
  have e : jacA a.rv b.rv 0 = (b.rv - a.rv) / (2 + b.rv + a.rv) := by unfold jacA; rw [if_pos rfl]
  have hε : U * |b.rv - a.rv| / |2 + b.rv + a.rv| = U * (|b.rv - a.rv| / |2 + b.rv + a.rv|) := by ring
  obtain ⟨q, hqd⟩ : ∃ q, q = |b.rv - a.rv| / |2 + b.rv + a.rv| := ⟨_, rfl⟩
  have hUq : U * q ≤ U * 1 := mul_le_mul_of_nonneg_left (hqd ▸ hq) hU.le
  obtain ⟨δ, hδ⟩ : ∃ δ, δ = (2.01 + 1 / μ) * U := ⟨_, rfl⟩
  have hiU : 1 / μ * U ≤ 1000 * (1 / 10 ^ 15) := mul_le_mul hi2 hU1 hU.le (by norm_num)
  have hiU2 : U ≤ 1 / μ * U := le_mul_of_one_le_left hU.le hi
  have hδ2 : δ ≤ 3.01 * (1 / μ * U) := by rw [hδ]; linarith
  have hδ0 : 0 ≤ δ := by rw [hδ]; positivity
  have r2n := r2.near
  rw [← hδ] at r2n
  have hd := n1.div (δ := δ) r2n hs0.ne' hδ0 (by linarith) (by
    rw [hε, ← hqd]
    rw [← hqd] at hq
    exact le_trans (by linarith : _ ≤ (2 : ℝ)) (by norm_num))
  have eM : GaussJacobi.diag a b 0 = F64.div (F64.sub b a) (F64.add (F64.add (lit 2.0 : F64) b) a) := by
    unfold GaussJacobi.diag; rw [if_pos rfl]; rfl
  rw [e, eM]
  refine ⟨hd.mono ?_, by rw [abs_div]; exact hq⟩
  rw [hε, ← hqd]
  rw [← hqd] at hq hq0
  have h1 : (1.002 + 1.002 * U) * (U * q) ≤ (1.002 + 1.002 * U) * (U * 1) := mul_le_mul_of_nonneg_left hUq (by positivity)
  have h2 : (1.002 * δ + 1.003 * U) * q ≤ (1.002 * δ + 1.003 * U) * 1 := mul_le_mul_of_nonneg_left hq (by positivity)
  have h3 : (1 : ℝ) / 2 ^ 1075 ≤ U := by unfold U; norm_num
  rw [show 16 * (1 / μ) * U = 16 * (1 / μ * U) by ring]
  have h4 : U * U ≤ U * 1 := mul_le_mul_of_nonneg_left (by linarith) hU.le
  linarith

theorem jac_diag_big (h : JacOk a b μ) {k : ℕ} (hk : 1 ≤ k) (hk1 : k < 10 ^ 12) (hsum : μ ≤ k + a.rv + b.rv) :
    Near (GaussJacobi.diag a b k) (jacA a.rv b.rv k) (16 * U) ∧ |jacA a.rv b.rv k| ≤ 1 := by
  have hU := U_pos
  have hU1 := U_le_eta
  have ha2 := h.a2
  have hb2 := h.b2
  have hga := h.ga
  have hgb := h.gb
  have hμ0 := h.μ0
  have h55 : (0 : ℝ) < 1 / 2 ^ 55 := by positivity
  have hk' : (1 : ℝ) ≤ k := by exact_mod_cast hk
  have hk1' : (k : ℝ) ≤ 10 ^ 12 := by exact_mod_cast hk1.le
  obtain ⟨rd, md⟩ := jac_denom h hk hk1.le hsum (ofNat_isNat (by omega : k < 2 ^ 53))
  have rp := rd.add_exact (y := (lit 2.0 : F64)) (ν := 1) (d := 7.03) md.pos.le (by linarith) lit_two_isNat.1 (by rw [lit_two_rv]; norm_num)
    (by rw [lit_two_rv]; norm_num) (by norm_num) le_rfl (by rw [lit_two_rv]; linarith) (by norm_num) (by norm_num) (by norm_num)
  rw [lit_two_rv] at rp
  have mp : Mag (2 * (k : ℝ) + a.rv + b.rv + 2) 0 45 := ⟨by norm_num; linarith, le_trans (by linarith : _ ≤ (10 : ℝ) ^ 13) (by norm_num)⟩
  have rD := rd.mul rp (d := 11.05) ((md.mul mp).lo (by norm_num)) ((md.mul mp).hi (by norm_num)) (by norm_num) (by norm_num) (by norm_num) (by norm_num)
    (by norm_num)
  have e : jacA a.rv b.rv k = (b.rv * b.rv - a.rv * a.rv) / ((2 * k + a.rv + b.rv) * (2 * k + a.rv + b.rv + 2)) := by
    unfold jacA; rw [if_neg (by omega)]
  have eM : GaussJacobi.diag a b k = F64.div (F64.sub (F64.mul b b) (F64.mul a a))
      (F64.mul (F64.add (F64.add (F64.mul (lit 2.0 : F64) (ofNat k)) a) b)
        (F64.add (F64.add (F64.add (F64.mul (lit 2.0 : F64) (ofNat k)) a) b) (lit 2.0 : F64))) := by
    unfold GaussJacobi.diag; rw [if_neg (by omega)]; rfl
  rw [e, eM]
  have hDp := (md.mul mp).pos
  have hD2 := (md.mul mp).1
  obtain ⟨d, hd⟩ : ∃ d : ℝ, d = 2 * k + a.rv + b.rv := ⟨_, rfl⟩
  rw [← hd] at rD hDp hD2 ⊢
  obtain ⟨D, hD⟩ : ∃ D : ℝ, D = d * (d + 2) := ⟨_, rfl⟩
  rw [← hD] at rD hDp hD2 ⊢
  have hd1 : 1 ≤ d := by linarith
  have hsa : a.rv * a.rv ≤ D := by
    have h1 : |a.rv| ≤ d := _root_.abs_le.2 ⟨by linarith, by linarith⟩
    rw [← abs_mul_abs_self, hD]
    exact mul_le_mul h1 (by linarith) (abs_nonneg _) (by linarith)
  have hsb : b.rv * b.rv ≤ D := by
    have h1 : |b.rv| ≤ d := _root_.abs_le.2 ⟨by linarith, by linarith⟩
    rw [← abs_mul_abs_self, hD]
    exact mul_le_mul h1 (by linarith) (abs_nonneg _) (by linarith)
  have ha0 := mul_self_nonneg a.rv
  have hb0 := mul_self_nonneg b.rv
  have hD1 : 1 ≤ D := by simpa using hD2
  have hDb : D ≤ 10 ^ 30 := by
    rw [hD]
    calc d * (d + 2) ≤ 10 ^ 13 * 10 ^ 13 := mul_le_mul (by linarith) (by linarith) (by linarith) (by norm_num)
      _ ≤ _ := by norm_num
  obtain ⟨t, ht⟩ : ∃ t : ℝ, t = 1 / 2 ^ 1075 := ⟨_, rfl⟩
  have ht0 : 0 ≤ t := by rw [ht]; positivity
  have htU : t ≤ 0.0001 * U := by rw [ht]; unfold U; norm_num
  have sq : ∀ {x : F64}, x.isFinite = true → x.rv * x.rv ≤ D → Near (F64.mul x x) (x.rv * x.rv) (U * D + t) := by
    intro x hx hxD
    have := (near_self hx).mul (near_self hx) (A := |x.rv|) (B := |x.rv|) (by simp) (by simp) (by
      rw [abs_mul_abs_self]; exact hxD.trans (hDb.trans (by norm_num)))
    rw [abs_mul_abs_self, ← ht] at this
    refine this.mono ?_
    have h1 : U * (x.rv * x.rv) ≤ U * D := mul_le_mul_of_nonneg_left hxD hU.le
    linarith
  have hdiff : |b.rv * b.rv - a.rv * a.rv| ≤ D := _root_.abs_le.2 ⟨by linarith, by linarith⟩
  have hUD : U * D ≤ 0.0001 * D := mul_le_mul_of_nonneg_right (by linarith) hDp.le
  have hUD0 : 0 ≤ U * D := by positivity
  have hUlD : U ≤ U * D := le_mul_of_one_le_right hU.le hD1
  have n := (sq h.fb hsb).sub (sq h.fa hsa) (A := 1.001 * D) (by linarith) (by linarith [show (10 : ℝ) ^ 31 ≤ 2 ^ 1023 by norm_num])
  have n' := n.mono (δ := 3.01 * U * D) (by linarith)
  have hq : |b.rv * b.rv - a.rv * a.rv| / |D| ≤ 1 := by rw [abs_of_pos hDp, div_le_one hDp]; exact hdiff
  have hε : 3.01 * U * D / |D| = 3.01 * U := by rw [abs_of_pos hDp]; field_simp
  have f := n'.div (δ := 11.05 * U) rD.near hDp.ne' (by positivity) (by linarith) (by
    rw [hε]; exact le_trans (by linarith : _ ≤ (2 : ℝ)) (by norm_num))
  refine ⟨f.mono ?_, by rw [abs_div]; exact hq⟩
  rw [hε, ← ht]
  have h2 : (1.002 * (11.05 * U) + 1.003 * U) * (|b.rv * b.rv - a.rv * a.rv| / |D|) ≤ (1.002 * (11.05 * U) + 1.003 * U) * 1 :=
    mul_le_mul_of_nonneg_left hq (by positivity)
  have h4 : U * U ≤ U * 0.0001 := mul_le_mul_of_nonneg_left (by linarith) hU.le
  linarith

theorem jac_diag_neg (h : JacOk a b μ) (hn : a.rv + b.rv + 1 ≤ -μ) :
    Near (GaussJacobi.diag a b 1) (jacA a.rv b.rv 1) (16 * (1 / μ) * U) ∧ |jacA a.rv b.rv 1| ≤ 1 := by
  have hU := U_pos
  have hU1 := U_le_eta
  have hga := h.ga
  have hgb := h.gb
  have hμ0 := h.μ0
  have hμ1 := h.μ1
  have hμp : 0 < μ := by linarith
  have ht := h.t
  obtain ⟨hi, hi2, hiμ⟩ := h.inv
  have h55 : (0 : ℝ) < 1 / 2 ^ 55 := by positivity
  have nd := jac_denom_neg h hn (ofNat_isNat (m := 1) (by norm_num))
  have e : jacA a.rv b.rv 1 = (b.rv * b.rv - a.rv * a.rv) / ((2 + a.rv + b.rv) * (2 + a.rv + b.rv + 2)) := by
    unfold jacA; rw [if_neg (by omega)]; norm_num
  have eM : GaussJacobi.diag a b 1 = F64.div (F64.sub (F64.mul b b) (F64.mul a a))
      (F64.mul (F64.add (F64.add (F64.mul (lit 2.0 : F64) (ofNat 1)) a) b)
        (F64.add (F64.add (F64.add (F64.mul (lit 2.0 : F64) (ofNat 1)) a) b) (lit 2.0 : F64))) := by
    unfold GaussJacobi.diag; rw [if_neg (by omega)]; rfl
  rw [e, eM]
  generalize F64.add (F64.add (F64.mul (lit 2.0 : F64) (ofNat 1)) a) b = y at nd ⊢
  obtain ⟨d, hd⟩ : ∃ d : ℝ, d = 2 + a.rv + b.rv := ⟨_, rfl⟩
  rw [← hd] at nd ⊢
  have hd0 : μ ≤ d := by linarith
  have hd1 : d ≤ 1 := by linarith
  have rd : Rel y d (3.01 * (1 / μ)) := by
    refine nd.rel ?_
    rw [abs_of_pos (by linarith)]
    calc 3.01 * U = 3.01 * (1 / μ) * U * μ := by rw [show 3.01 * (1 / μ) * U * μ = 3.01 * U * (1 / μ * μ) by ring, hiμ, mul_one]
      _ ≤ _ := mul_le_mul_of_nonneg_left hd0 (by positivity)
  have n2 := near_self (lit_two_isNat (L := L)).1
  rw [lit_two_rv] at n2
  have rp : Rel (F64.add y (lit 2.0 : F64)) (d + 2) 6.02 := by
    have := nd.add n2 (A := 3.001) (by rw [abs_of_pos (by linarith)]; linarith) (by norm_num)
    refine this.rel ?_
    rw [abs_of_pos (by linarith)]
    calc 3.01 * U + 0 + U * 3.001 ≤ 6.02 * U * 1 := by linarith
      _ ≤ _ := mul_le_mul_of_nonneg_left (by linarith) (by positivity)
  have md : Mag d 10 0 := ⟨le_trans (by norm_num : _ ≤ (1 : ℝ) / 1000) (by linarith), by norm_num; linarith⟩
  have mp : Mag (d + 2) 0 2 := ⟨by norm_num; linarith, by norm_num; linarith⟩
  have rD := rd.mul rp (d := 11.05 * (1 / μ)) ((md.mul mp).lo (by norm_num)) ((md.mul mp).hi (by norm_num)) (by linarith) (by norm_num) (by linarith) (by norm_num)
    (by linarith)
  have hDp := (md.mul mp).pos
  have hD2 : 2 * μ ≤ d * (d + 2) := by nlinarith
  have hdiff : |b.rv * b.rv - a.rv * a.rv| ≤ d * (d + 2) := by
    rw [show b.rv * b.rv - a.rv * a.rv = (b.rv - a.rv) * (a.rv + b.rv) by ring, abs_mul]
    exact mul_le_mul (_root_.abs_le.2 ⟨by linarith, by linarith⟩) (_root_.abs_le.2 ⟨by linarith, by linarith⟩) (abs_nonneg _) (by linarith)
  obtain ⟨D, hD⟩ : ∃ D : ℝ, D = d * (d + 2) := ⟨_, rfl⟩
  rw [← hD] at rD hDp hD2 hdiff ⊢
  obtain ⟨t, ht'⟩ : ∃ t : ℝ, t = 1 / 2 ^ 1075 := ⟨_, rfl⟩
  have ht0 : 0 ≤ t := by rw [ht']; positivity
  have htU : t ≤ 0.0001 * U := by rw [ht']; unfold U; norm_num
  have sq : ∀ {x : F64}, x.isFinite = true → -1 ≤ x.rv → x.rv ≤ 0 → Near (F64.mul x x) (x.rv * x.rv) (U + t) ∧ x.rv * x.rv ≤ 1 := by
    intro x hx h1 h2
    have h3 : |x.rv| ≤ 1 := _root_.abs_le.2 ⟨h1, by linarith⟩
    have := (near_self hx).mul (near_self hx) (A := 1) (B := 1) (by linarith) (by linarith) (by norm_num)
    rw [← ht'] at this
    exact ⟨this.mono (by linarith), by rw [← abs_mul_abs_self]; nlinarith [abs_nonneg x.rv]⟩
  obtain ⟨sa, sa1⟩ := sq h.fa (by linarith) (by linarith)
  obtain ⟨sb, sb1⟩ := sq h.fb (by linarith) (by linarith)
  have ha0 := mul_self_nonneg a.rv
  have hb0 := mul_self_nonneg b.rv
  have n := sb.sub sa (A := 1.001) (by
    have : |b.rv * b.rv - a.rv * a.rv| ≤ 1 := _root_.abs_le.2 ⟨by linarith, by linarith⟩
    linarith) (by norm_num)
  have n' := n.mono (δ := 3.01 * U) (by linarith)
  have hq : |b.rv * b.rv - a.rv * a.rv| / |D| ≤ 1 := by rw [abs_of_pos hDp, div_le_one hDp]; exact hdiff
  have hiU : 1 / μ * U ≤ 1000 * (1 / 10 ^ 15) := mul_le_mul hi2 hU1 hU.le (by norm_num)
  have hiU2 : U ≤ 1 / μ * U := le_mul_of_one_le_left hU.le hi
  have hε : 3.01 * U / |D| ≤ 1.51 * (1 / μ * U) := by
    rw [abs_of_pos hDp, div_le_iff₀ hDp]
    calc 3.01 * U ≤ 1.51 * U * 2 := by linarith
      _ = 1.51 * (1 / μ * U) * (2 * μ) := by
          rw [show 1.51 * (1 / μ * U) * (2 * μ) = 1.51 * U * 2 * (1 / μ * μ) by ring, hiμ, mul_one]
      _ ≤ _ := mul_le_mul_of_nonneg_left hD2 (by positivity)
  have hε0 : 0 ≤ 3.01 * U / |D| := by positivity
  obtain ⟨δ, hδ⟩ : ∃ δ, δ = 11.05 * (1 / μ) * U := ⟨_, rfl⟩
  have hδe : δ = 11.05 * (1 / μ * U) := by rw [hδ]; ring
  have rDn := rD.near
  rw [← hδ] at rDn
  have f := n'.div (δ := δ) rDn hDp.ne' (by linarith) (by linarith) (by
    exact le_trans (by linarith : _ ≤ (2 : ℝ)) (by norm_num))
  refine ⟨f.mono ?_, by rw [abs_div]; exact hq⟩
  rw [← ht', show 16 * (1 / μ) * U = 16 * (1 / μ * U) by ring]
  have h1 : (1.002 + 1.002 * U) * (3.01 * U / |D|) ≤ 1.003 * (1.51 * (1 / μ * U)) := mul_le_mul (by linarith) hε hε0 (by norm_num)
  have h2 : (1.002 * δ + 1.003 * U) * (|b.rv * b.rv - a.rv * a.rv| / |D|) ≤ (1.002 * δ + 1.003 * U) * 1 :=
    mul_le_mul_of_nonneg_left hq (by linarith)
  linarith

theorem jac_diag (h : JacOk a b μ) {k : ℕ} (hk1 : k < 10 ^ 12) :
    Near (GaussJacobi.diag a b k) (jacA a.rv b.rv k) (16 * (1 / μ) * U) ∧ |jacA a.rv b.rv k| ≤ 1 := by
  obtain ⟨hi, -, -⟩ := h.inv
  have hU := U_pos
  have big : ∀ {k : ℕ}, 1 ≤ k → k < 10 ^ 12 → μ ≤ k + a.rv + b.rv →
      Near (GaussJacobi.diag a b k) (jacA a.rv b.rv k) (16 * (1 / μ) * U) ∧ |jacA a.rv b.rv k| ≤ 1 := fun h1 h2 h3 => by
    obtain ⟨g1, g2⟩ := jac_diag_big h h1 h2 h3
    exact ⟨g1.mono (mul_le_mul_of_nonneg_right (by linarith) hU.le), g2⟩
  rcases Nat.eq_zero_or_pos k with rfl | hk
  · exact jac_diag_zero h
  · have hk' : (1 : ℝ) ≤ k := by exact_mod_cast hk
    rcases h.cases with hc | hc
    · exact big hk hk1 (by linarith)
    · by_cases h1 : k = 1
      · subst h1
        exact jac_diag_neg h hc
      · have : (2 : ℝ) ≤ k := by exact_mod_cast (by omega : 2 ≤ k)
        exact big hk hk1 (by linarith [h.t])

omit L in
theorem jacB_le (h : JacOk a b μ) (k : ℕ) : |jacB a.rv b.rv k| ≤ 1 := by
  have hga := h.ga
  have hgb := h.gb
  have hsum := h.t
  have hcs := h.cases
  have hμ0 := h.μ0
  have h55 : (0 : ℝ) < 1 / 2 ^ 55 := by positivity
  obtain ⟨α, hα⟩ : ∃ α, α = a.rv := ⟨_, rfl⟩
  obtain ⟨β, hβ⟩ : ∃ β, β = b.rv := ⟨_, rfl⟩
  rw [← hα, ← hβ] at hsum hcs ⊢
  have hne : α + β + 1 ≠ 0 := by
    rcases hcs with h | h
    · exact (by linarith : 0 < α + β + 1).ne'
    · exact (by linarith : α + β + 1 < 0).ne
  rw [← hα] at hga
  rw [← hβ] at hgb
  have hsq : jacB α β k ^ 2 ≤ 1 ^ 2 := by
    rw [jacB_sq (by linarith) (by linarith) (fun h => hne (by linarith))]
    have hk0 : (0 : ℝ) ≤ k := by positivity
    rcases Nat.eq_zero_or_pos k with rfl | hk
    · push_cast
      have h0 : 0 < 2 + α + β := by linarith
      have h3 : 0 < 3 + α + β := by linarith
      have hne' : 1 + α + β ≠ 0 := fun h => hne (by linarith)
      have e : 4 * ((0 : ℝ) + 1) * (0 + 1 + α) * (0 + 1 + β) * (0 + 1 + α + β) /
          ((2 * (0 + 1) + α + β) ^ 2 * ((2 * (0 + 1) + α + β + 1) * (2 * (0 + 1) + α + β - 1))) = (1 + α) * (1 + β) * 4 / ((2 + α + β) ^ 2 * (3 + α + β)) := by
        rw [show (2 * ((0 : ℝ) + 1) + α + β - 1) = 1 + α + β by ring, show (2 * ((0 : ℝ) + 1) + α + β + 1) = 3 + α + β by ring,
          show (2 * ((0 : ℝ) + 1) + α + β) = 2 + α + β by ring, show (0 : ℝ) + 1 + α + β = 1 + α + β by ring]
        field_simp
        ring
      rw [e, div_le_iff₀ (by positivity)]
      have h1 : (1 + α) * (1 + β) * 4 ≤ (2 + α + β) ^ 2 := by nlinarith [sq_nonneg (α - β)]
      have h4 : (2 + α + β) ^ 2 * 1 ≤ (2 + α + β) ^ 2 * (3 + α + β) := mul_le_mul_of_nonneg_left (by linarith) (by positivity)
      linarith
    · have hk' : (1 : ℝ) ≤ k := by exact_mod_cast hk
      obtain ⟨d, hd⟩ : ∃ d : ℝ, d = 2 * (k + 1) + α + β := ⟨_, rfl⟩
      have hd3 : 2 ≤ d := by linarith
      rw [← hd, div_le_iff₀ (by
        have h2 : 0 < d - 1 := by linarith
        have h3 : 0 < d + 1 := by linarith
        positivity)]
      have e1 : 4 * ((k : ℝ) + 1) * (k + 1 + α + β) = d ^ 2 - (α + β) ^ 2 := by rw [hd]; ring
      have e2 : 4 * ((k : ℝ) + 1 + α) * (k + 1 + β) = d ^ 2 - (α - β) ^ 2 := by rw [hd]; ring
      have p1 : 0 ≤ 4 * ((k : ℝ) + 1) * (k + 1 + α + β) := by
        have : 0 ≤ (k : ℝ) + 1 + α + β := by linarith
        positivity
      have p2 : 0 ≤ 4 * ((k : ℝ) + 1 + α) * (k + 1 + β) := by
        have h1 : 0 ≤ (k : ℝ) + 1 + α := by linarith
        have h2 : 0 ≤ (k : ℝ) + 1 + β := by linarith
        positivity
      have h5 := mul_le_mul (by rw [e1]; nlinarith [sq_nonneg (α + β)] : 4 * ((k : ℝ) + 1) * (k + 1 + α + β) ≤ d ^ 2)
        (by rw [e2]; nlinarith [sq_nonneg (α - β)] : 4 * ((k : ℝ) + 1 + α) * (k + 1 + β) ≤ d ^ 2) p2 (sq_nonneg _)
      have h6 : d ^ 2 * d ^ 2 ≤ d ^ 2 * (4 * (d ^ 2 - 1)) := mul_le_mul_of_nonneg_left (by nlinarith) (sq_nonneg _)
      linarith
  exact abs_le_of_sq_le_sq hsq (by norm_num)

end
end GaussQuad.F64
