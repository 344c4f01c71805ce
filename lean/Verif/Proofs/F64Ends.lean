import Verif.Spec.CosEnds
import Verif.Proofs.F64Legendre
import Verif.Proofs.F64Chebyshev
import Verif.Proofs.TrigExists
import Verif.Proofs.Structure

/-!
# The angles next to 0 and π in binary64
-/

set_option exponentiation.threshold 3000

namespace GaussQuad.F64
open Spec FloatOps Bogaert Asymptotic LegendreData

variable [L : Libm]

/-- the angle is so small that `cos` is `1` -/
theorem small_of_rel {x : F64} {t c : ℝ} (hx : Rel x t c) (hc0 : 0 ≤ c) (hc : c ≤ 100) (h0 : 0 ≤ t) (h : t ≤ 0.99 / 2 ^ 27) : |x.rv| ≤ 1 / 2 ^ 27 := by
  have hd := hx.2
  rw [abs_of_nonneg h0] at hd
  have h1 : c * U ≤ 0.001 := by
    have : c * U ≤ 100 * U := by have := U_pos; gcongr
    refine this.trans ?_
    unfold U; norm_num
  have h2 : c * U * t ≤ 0.001 * (0.99 / 2 ^ 27) := mul_le_mul h1 h h0 (by norm_num)
  have h3 := abs_sub_abs_le_abs_sub x.rv t
  rw [abs_of_nonneg h0] at h3
  have h4 : (0.001 : ℝ) * (0.99 / 2 ^ 27) + 0.99 / 2 ^ 27 ≤ 1 / 2 ^ 27 := by norm_num
  linarith

/-- the angle is so close to `π` that `cos` is `-1` -/
theorem near_pi_of {x : F64} {t c : ℝ} (hx : Near x t c) (hc : c ≤ 1 / 2 ^ 40) (h : |Real.pi - t| ≤ 0.99 / 2 ^ 27) : |x.rv - Real.pi| ≤ 1 / 2 ^ 27 := by
  have h1 := abs_sub_le x.rv t Real.pi
  rw [abs_sub_comm t] at h1
  have h2 := hx.2
  have h4 : (1 : ℝ) / 2 ^ 40 + 0.99 / 2 ^ 27 ≤ 1 / 2 ^ 27 := by norm_num
  linarith

omit L in
/-- the exact-arithmetic angle of the `k`-th node -/
theorem theta_le {n k : ℕ} (hk : 1 ≤ k) (hn : k * 2 ^ 29 ≤ n) (hlt : n < 2 ^ 64) {p : ThetaWeightPair ℝ} (h : computePair n k = some p) :
    p.theta ≤ 0.99 / 2 ^ 27 := by
  obtain ⟨L, -⟩ := accurateTrig_exists
  unfold computePair at h
  simp only [Option.bind_eq_bind, Option.bind_eq_some_iff, Option.pure_def, Option.some.injEq] at h
  obtain ⟨ν, hν, β, hβ, rfl⟩ := h
  obtain ⟨b, -, -, b1, -⟩ := j1_rel (L := L) (k := k) (by omega) hβ
  have k1 : (1 : ℝ) ≤ k := by exact_mod_cast hk
  have n1 : (k : ℝ) * 2 ^ 29 ≤ n := by exact_mod_cast hn
  have hN : (0 : ℝ) < n + 1 / 2 := by positivity
  have hp1 := Real.pi_gt_d6
  have hp2 := Real.pi_lt_d6
  have hc := _root_.abs_le.1 (nu_close hk hν)
  have hν1 : ν ≤ 3.1416 * k - 0.6 := by nlinarith
  have hν0 : 0 < ν := by nlinarith
  have hq : (ν + 0.002) / (n + 1 / 2) ≤ 0.99 / 2 ^ 27 := by
    rw [div_le_iff₀ hN]
    have : (0.99 : ℝ) / 2 ^ 27 * (k * 2 ^ 29) ≤ 0.99 / 2 ^ 27 * (n + 1 / 2) := by gcongr; linarith
    have e : (0.99 : ℝ) / 2 ^ 27 * (k * 2 ^ 29) = 3.96 * k := by ring
    linarith
  obtain ⟨g, -, -⟩ := core_bounds (n := n) (by omega) (nu := ν) (b := β) hν0 (lt_of_lt_of_le (by positivity) b1) (by
    refine le_trans ?_ (hq.trans (by norm_num))
    gcongr; linarith)
  have g := (_root_.abs_le.1 g).2
  rw [add_div] at hq
  linarith

/-- the `k`-th node from the right is the cosine of a small angle -/
theorem legendre_right_angle (hL : AccurateTrig L) {n k : ℕ} (hk : 1 ≤ k) (hn : k * 2 ^ 29 ≤ n) (hlt : n < 2 ^ 64) {q : F64 × F64}
    (h : nodeWeightPair n k = some q) : ∃ x : F64, q.1 = L.cos x ∧ x.isFinite = true ∧ 0 ≤ x.rv ∧ |x.rv| ≤ 1 / 2 ^ 27 := by
  obtain ⟨p, hp⟩ := computePair_some (F := ℝ) (n := n) hk
  obtain ⟨p', e1, e2, -, e4, -⟩ := computePair_close hL (by omega) hlt hk (by omega) hp
  have hnew : ThetaWeightPair.new n k = some p' := by
    unfold ThetaWeightPair.new
    have ek : csub (2 * k) 1 = some (2 * k - 1) := by simp [csub]; omega
    rw [if_neg (by omega)]
    simp only [ek, Option.bind_eq_bind, Option.bind_some]
    rw [if_neg (by omega)]
    exact e1
  unfold nodeWeightPair at h
  simp only [hnew, Option.bind_eq_bind, Option.bind_some, Option.pure_def, Option.some.injEq] at h
  subst h
  exact ⟨p'.theta, rfl, e2.1, nonneg_of_rel e2 (by norm_num) e4.le, small_of_rel e2 (by norm_num) (by norm_num) e4.le (theta_le hk hn hlt hp)⟩

/-- the `k`-th node from the right is `1` -/
theorem legendre_right (hL : AccurateTrig L) (hE : CosEnds L) {n k : ℕ} (hk : 1 ≤ k) (hn : k * 2 ^ 29 ≤ n) (hlt : n < 2 ^ 64) {q : F64 × F64}
    (h : nodeWeightPair n k = some q) : q.1.isFinite = true ∧ q.1.val = 1 := by
  obtain ⟨x, e, hx, -, h1⟩ := legendre_right_angle hL hk hn hlt h
  rw [e]
  exact (hE x hx).1 h1

/-- the `k`-th node from the left is `-1` -/
theorem legendre_left (hL : AccurateTrig L) (hE : CosEnds L) {n k : ℕ} (hk : 1 ≤ k) (hn : k * 2 ^ 29 ≤ n) (hlt : n < 2 ^ 64) {q : F64 × F64}
    (h : nodeWeightPair n (n + 1 - k) = some q) : q.1.isFinite = true ∧ q.1.val = -1 := by
  obtain ⟨p, hp⟩ := computePair_some (F := ℝ) (n := n) hk
  obtain ⟨p', e1, e2, e3, e4, e5⟩ := computePair_close hL (by omega) hlt hk (by omega) hp
  have hc := close_high e2 e3 e4 e5
  have hnew : ThetaWeightPair.new n (n + 1 - k) = some ⟨pi -ᶠ p'.theta, p'.weight⟩ := by
    unfold ThetaWeightPair.new
    have ek : csub (2 * (n + 1 - k)) 1 = some (2 * (n + 1 - k) - 1) := by simp [csub]; omega
    have ek2 : csub n (n + 1 - k) = some (k - 1) := by simp [csub]; omega
    rw [if_neg (by omega)]
    simp only [ek, ek2, Option.bind_eq_bind, Option.bind_some]
    rw [if_pos (by omega), Nat.sub_add_cancel hk, e1]
    rfl
  unfold nodeWeightPair at h
  simp only [hnew, Option.bind_eq_bind, Option.bind_some, Option.pure_def, Option.some.injEq] at h
  subst h
  refine (hE _ hc.theta.1).2 (near_pi_of hc.theta ?_ ?_)
  · unfold U; norm_num
  · change |Real.pi - (Real.pi - p.theta)| ≤ _
    rw [sub_sub_cancel, abs_of_pos e4]
    exact theta_le hk hn hlt hp

/-- the angle of the Chebyshev rule of the first kind -/
theorem cheb1_angle {n i : ℕ} (hi : 1 ≤ i) (hin : i ≤ n) (hn : n < 2 ^ 52) :
    Rel (pi *ᶠ (lit 2.0 *ᶠ ofNat i -ᶠ lit 1.0) /ᶠ (lit 2.0 *ᶠ ofNat n) : F64) (Real.pi * (2 * i - 1) / (2 * n)) 2.363 := by
  have n1 : IsNat (ofNat n : F64) n := ofNat_isNat (by omega)
  have i1 : IsNat (ofNat i : F64) i := ofNat_isNat (by omega)
  have t1 := lit_two_isNat.mul i1 (by omega)
  have t2 := t1.sub lit_one_isNat (by omega) (by omega)
  have t3 := lit_two_isNat.mul n1 (by omega)
  have q1 := ratio_moderate (m := 2 * i - 1) (k := 1) (by omega) one_pos (by omega) (by norm_num)
  have q2 := ratio_moderate (m := 2 * i - 1) (k := 2 * n) (by omega) (by omega) (by omega) (by omega)
  rw [Nat.cast_one, div_one] at q1
  have m1 := pi_rel.mul t2.rel (pos_moderate q1.1 q1.2).1 (pos_moderate q1.1 q1.2).2 (by norm_num) le_rfl (by norm_num) (by norm_num) (d := 1.361) (by norm_num)
  have hn0 : (n : ℝ) ≠ 0 := by exact_mod_cast (by omega : n ≠ 0)
  have m2 := m1.div t3.rel (by push_cast; positivity) (pos_moderate q2.1 q2.2).1 (pos_moderate q2.1 q2.2).2 (by norm_num) le_rfl (by norm_num) (by norm_num) (d := 2.363) (by norm_num)
  have e : Real.pi * ((2 * i - 1 : ℕ) : ℝ) / ((2 * n : ℕ) : ℝ) = Real.pi * (2 * i - 1) / (2 * n) := by
    rw [Nat.cast_sub (by omega)]; push_cast; rfl
  rw [e] at m2
  exact m2

/-- the angle of the Chebyshev rule of the second kind -/
theorem cheb2_angle {n i : ℕ} (hi : 1 ≤ i) (hin : i ≤ n) (hn : n < 2 ^ 52) :
    Rel (pi *ᶠ ofNat i *ᶠ (lit 1.0 /ᶠ (ofNat n +ᶠ lit 1.0)) : F64) (Real.pi * i / (n + 1)) 3.365 := by
  have n1 : IsNat (ofNat n : F64) n := ofNat_isNat (by omega)
  have i1 : IsNat (ofNat i : F64) i := ofNat_isNat (by omega)
  have n2 := n1.add lit_one_isNat (by omega)
  have n3 : (((n + 1 : ℕ)) : ℝ) = n + 1 := by push_cast; rfl
  have hn0 : (0 : ℝ) < n + 1 := by positivity
  have q1 := ratio_moderate (m := i) (k := 1) (by omega) one_pos (by omega) (by norm_num)
  have q2 := ratio_moderate (m := i) (k := n + 1) (by omega) (by omega) (by omega) (by omega)
  rw [Nat.cast_one, div_one] at q1
  rw [n3] at q2
  have q4 : (1 : ℝ) / 2 ^ 100 ≤ 1 / (n + 1) ∧ (1 : ℝ) / (n + 1) ≤ 2 ^ 100 := by
    constructor
    · apply one_div_le_one_div_of_le hn0
      have : (n : ℝ) ≤ 2 ^ 52 := by exact_mod_cast hn.le
      linarith [show (2 : ℝ) ^ 52 + 1 ≤ 2 ^ 100 by norm_num]
    · rw [div_le_iff₀ hn0]
      have : (1 : ℝ) ≤ 2 ^ 100 := by norm_num
      nlinarith
  have o1 := lit_one_isNat.rel.div n2.rel (by rw [n3]; exact hn0.ne') (by rw [Nat.cast_one, n3]; exact (pos_moderate q4.1 q4.2).1)
    (by rw [Nat.cast_one, n3]; exact (pos_moderate q4.1 q4.2).2) le_rfl le_rfl (by norm_num) (by norm_num) (d := 1.002) (by norm_num)
  rw [Nat.cast_one, n3] at o1
  have m1 := pi_rel.mul i1.rel (pos_moderate q1.1 q1.2).1 (pos_moderate q1.1 q1.2).2 (by norm_num) le_rfl (by norm_num) (by norm_num) (d := 1.361) (by norm_num)
  have e1 : Real.pi * i * (1 / ((n : ℝ) + 1)) = Real.pi * i / (n + 1) := by ring
  have m2 := m1.mul o1 (by rw [e1]; exact (pos_moderate q2.1 q2.2).1) (by rw [e1]; exact (pos_moderate q2.1 q2.2).2) (by norm_num) (by norm_num) (by norm_num) (by norm_num) (d := 3.365) (by norm_num)
  rw [e1] at m2
  exact m2

omit L in
/-- `π·a/b` is tiny -/
theorem ratio_small {a b k : ℝ} (hb : 0 < b) (h1 : a ≤ k) (h2 : k * 2 ^ 29 ≤ b) (hk : 0 ≤ k) : Real.pi * a / b ≤ 0.99 / 2 ^ 27 := by
  have hp := Real.pi_lt_d6
  have hp0 := Real.pi_pos
  rw [div_le_iff₀ hb]
  have : (0.99 : ℝ) / 2 ^ 27 * (k * 2 ^ 29) ≤ 0.99 / 2 ^ 27 * b := by gcongr
  have e : (0.99 : ℝ) / 2 ^ 27 * (k * 2 ^ 29) = 3.96 * k := by ring
  have h3 : Real.pi * a ≤ Real.pi * k := by gcongr
  nlinarith

omit L in
theorem cheb1_small {n k : ℕ} (hk : 1 ≤ k) (hn : k * 2 ^ 29 ≤ n) :
    0 ≤ Real.pi * (2 * k - 1) / (2 * n) ∧ Real.pi * (2 * k - 1) / (2 * n) ≤ 0.99 / 2 ^ 27 := by
  have k1 : (1 : ℝ) ≤ k := by exact_mod_cast hk
  have n1 : (k : ℝ) * 2 ^ 29 ≤ n := by exact_mod_cast hn
  have n0 : (0 : ℝ) < n := lt_of_lt_of_le (by positivity) n1
  refine ⟨div_nonneg (mul_nonneg Real.pi_pos.le (by linarith)) (by linarith), ?_⟩
  have e : Real.pi * (2 * k - 1) / (2 * n) = Real.pi * (k - 1 / 2) / n := by field_simp
  rw [e]; exact ratio_small n0 (by linarith) n1 (by linarith)

omit L in
theorem cheb2_small {n k : ℕ} (hn : k * 2 ^ 29 ≤ n) : 0 ≤ Real.pi * k / (n + 1) ∧ Real.pi * k / (n + 1) ≤ 0.99 / 2 ^ 27 := by
  have n1 : (k : ℝ) * 2 ^ 29 ≤ n := by exact_mod_cast hn
  exact ⟨by positivity, ratio_small (by positivity) le_rfl (by linarith) (by positivity)⟩

/-- first kind: the `k`-th node from the right is `1`, from the left `-1` -/
theorem cheb1_ends (hE : CosEnds L) {n k : ℕ} (hk : 1 ≤ k) (hn : k * 2 ^ 29 ≤ n) (hlt : n < 2 ^ 52) :
    ((GaussChebyshevFirstKind.pair n k : F64 × F64).1.isFinite = true ∧ (GaussChebyshevFirstKind.pair n k : F64 × F64).1.val = 1) ∧
    ((GaussChebyshevFirstKind.pair n (n + 1 - k) : F64 × F64).1.isFinite = true ∧ (GaussChebyshevFirstKind.pair n (n + 1 - k) : F64 × F64).1.val = -1) := by
  have k1 : (1 : ℝ) ≤ k := by exact_mod_cast hk
  have n1 : (k : ℝ) * 2 ^ 29 ≤ n := by exact_mod_cast hn
  have n0 : (0 : ℝ) < n := lt_of_lt_of_le (by positivity) n1
  have hp0 := Real.pi_pos
  have hU := U_pos
  obtain ⟨hs0, hs⟩ := cheb1_small hk hn
  have r1 := cheb1_angle (L := L) hk (by omega : k ≤ n) hlt
  have r2 := cheb1_angle (L := L) (n := n) (i := n + 1 - k) (by omega) (by omega) hlt
  refine ⟨(hE _ r1.1).1 (small_of_rel r1 (by norm_num) (by norm_num) hs0 hs), ?_⟩
  have e : Real.pi * (2 * ((n + 1 - k : ℕ) : ℝ) - 1) / (2 * n) = Real.pi - Real.pi * (2 * k - 1) / (2 * n) := by
    rw [Nat.cast_sub (by omega)]; push_cast; field_simp; ring
  rw [e] at r2
  have h2 := r2.near_of_le (by norm_num) (A := 4) (by
    have := Real.pi_gt_three
    have : (0.99 : ℝ) / 2 ^ 27 ≤ 1 := by norm_num
    linarith) (by linarith [Real.pi_lt_four])
  refine (hE _ r2.1).2 (near_pi_of h2 ?_ ?_)
  · unfold U; norm_num
  · rw [sub_sub_cancel, abs_of_nonneg hs0]; exact hs

/-- second kind -/
theorem cheb2_ends (hE : CosEnds L) {n k : ℕ} (hk : 1 ≤ k) (hn : k * 2 ^ 29 ≤ n) (hlt : n < 2 ^ 52) :
    ((GaussChebyshevSecondKind.pair n k : F64 × F64).1.isFinite = true ∧ (GaussChebyshevSecondKind.pair n k : F64 × F64).1.val = 1) ∧
    ((GaussChebyshevSecondKind.pair n (n + 1 - k) : F64 × F64).1.isFinite = true ∧ (GaussChebyshevSecondKind.pair n (n + 1 - k) : F64 × F64).1.val = -1) := by
  have k1 : (1 : ℝ) ≤ k := by exact_mod_cast hk
  have n1 : (k : ℝ) * 2 ^ 29 ≤ n := by exact_mod_cast hn
  have n0 : (0 : ℝ) < n + 1 := by positivity
  have hp0 := Real.pi_pos
  have hU := U_pos
  obtain ⟨hs0, hs⟩ := cheb2_small hn
  have r1 := cheb2_angle (L := L) hk (by omega : k ≤ n) hlt
  have r2 := cheb2_angle (L := L) (n := n) (i := n + 1 - k) (by omega) (by omega) hlt
  refine ⟨(hE _ r1.1).1 (small_of_rel r1 (by norm_num) (by norm_num) hs0 hs), ?_⟩
  have e : Real.pi * ((n + 1 - k : ℕ) : ℝ) / (n + 1) = Real.pi - Real.pi * k / (n + 1) := by
    rw [Nat.cast_sub (by omega)]; push_cast; field_simp
  rw [e] at r2
  have h2 := r2.near_of_le (by norm_num) (A := 4) (by
    have := Real.pi_gt_three
    have : (0.99 : ℝ) / 2 ^ 27 ≤ 1 := by norm_num
    linarith) (by linarith [Real.pi_lt_four])
  refine (hE _ r2.1).2 (near_pi_of h2 ?_ ?_)
  · unfold U; norm_num
  · rw [sub_sub_cancel, abs_of_nonneg hs0]; exact hs

/-- the cosine of such an angle is one of four numbers, whatever the accurate backend -/
theorem cos_key (hL : AccurateTrig L) {x : F64} (hx : x.isFinite = true) (h0 : 0 ≤ x.rv) (h1 : |x.rv| ≤ 1 / 2 ^ 27) :
    (L.cos x).isFinite = true ∧ (0x3FEFFFFFFFFFFFFD : ℤ) < (L.cos x).key ∧ (L.cos x).key < 0x3FF0000000000002 := by
  rw [abs_of_nonneg h0] at h1
  obtain ⟨a1, a2⟩ := hL.cos x hx h0 (h1.trans (by norm_num))
  have a2 := _root_.abs_le.1 a2
  have c1 := Real.one_sub_sq_div_two_le_cos (x := x.rv)
  have c2 := Real.cos_le_one x.rv
  have h3 : x.rv ^ 2 ≤ (1 / 2 ^ 27) ^ 2 := by gcongr
  change _ ≤ (L.cos x).rv - Real.cos x.rv ∧ (L.cos x).rv - Real.cos x.rv ≤ _ at a2
  have lo : ((F64.ofBits 0x3FEFFFFFFFFFFFFD).val : ℝ) < (L.cos x).val := by
    have e : (F64.ofBits 0x3FEFFFFFFFFFFFFD).val = 1 - 3 / 2 ^ 53 := by decide +kernel
    rw [e]
    change _ < (L.cos x).rv
    push_cast
    have : (1 : ℝ) - 3 / 2 ^ 53 < 1 - (1 / 2 ^ 27) ^ 2 / 2 - 1 / 2 ^ 52 := by norm_num
    linarith
  have hi : ((L.cos x).val : ℝ) < (F64.ofBits 0x3FF0000000000002).val := by
    have e : (F64.ofBits 0x3FF0000000000002).val = 1 + 2 / 2 ^ 52 := by decide +kernel
    rw [e]
    change (L.cos x).rv < _
    push_cast
    have : (1 : ℝ) + 1 / 2 ^ 52 < 1 + 2 / 2 ^ 52 := by norm_num
    linarith
  have k1 := (key_lt_iff _ _).2 (by exact_mod_cast lo : (F64.ofBits 0x3FEFFFFFFFFFFFFD).val < (L.cos x).val)
  have k2 := (key_lt_iff _ _).2 (by exact_mod_cast hi : (L.cos x).val < (F64.ofBits 0x3FF0000000000002).val)
  rw [show (F64.ofBits 0x3FEFFFFFFFFFFFFD).key = 0x3FEFFFFFFFFFFFFD by decide +kernel] at k1
  rw [show (F64.ofBits 0x3FF0000000000002).key = 0x3FF0000000000002 by decide +kernel] at k2
  exact ⟨a1, k1, k2⟩

omit L in
/-- a number other than zero is determined by its value -/
theorem eq_of_val_eq {x y : F64} (h : x.val = y.val) (hy : y.val ≠ 0) : x = y := by
  have hk := (key_eq_iff x y).2 h
  have hm : y.mag ≠ 0 := fun h' => hy (val_eq_zero_iff.2 h')
  rcases x with ⟨s, m, _⟩
  rcases y with ⟨s', m', _⟩
  simp only [key] at hk hm
  cases s <;> cases s' <;> simp at hk ⊢ <;> omega

omit L in
/-- a backend that meets the contracts -/
theorem cosEnds_exists : ∃ L : Libm, AccurateTrig L ∧ CosEnds L := by
  classical
  obtain ⟨L, hL⟩ := accurateTrig_exists
  have one : (F64.ofBits 0x3FF0000000000000).isFinite = true ∧ (F64.ofBits 0x3FF0000000000000).val = 1 := by decide +kernel
  have mone : (F64.ofBits 0xBFF0000000000000).isFinite = true ∧ (F64.ofBits 0xBFF0000000000000).val = -1 := by decide +kernel
  let c : F64 → F64 := fun x => if |(x.val : ℝ)| ≤ 1 / 2 ^ 27 then F64.ofBits 0x3FF0000000000000 else
    if |(x.val : ℝ) - Real.pi| ≤ 1 / 2 ^ 27 then F64.ofBits 0xBFF0000000000000 else L.cos x
  have small : ∀ t : ℝ, |t| ≤ 1 / 2 ^ 27 → |1 - Real.cos t| ≤ 1 / 2 ^ 52 := by
    intro t ht
    have h1 := Real.one_sub_sq_div_two_le_cos (x := t)
    have h2 := Real.cos_le_one t
    have h3 : t ^ 2 ≤ (1 / 2 ^ 27) ^ 2 := by rw [← sq_abs]; gcongr
    rw [abs_of_nonneg (by linarith)]
    have h4 : ((1 : ℝ) / 2 ^ 27) ^ 2 / 2 ≤ 1 / 2 ^ 52 := by norm_num
    linarith
  refine ⟨{ L with cos := c }, ⟨hL.sin, ?_⟩, ?_⟩
  · intro x hx h0 h4
    change (c x).isFinite = true ∧ |((c x).val : ℝ) - Real.cos x.val| ≤ 1 / 2 ^ 52
    by_cases h1 : |(x.val : ℝ)| ≤ 1 / 2 ^ 27
    · have e : c x = F64.ofBits 0x3FF0000000000000 := if_pos h1
      rw [e]
      refine ⟨one.1, ?_⟩
      rw [one.2]
      simpa using small _ h1
    · by_cases h2 : |(x.val : ℝ) - Real.pi| ≤ 1 / 2 ^ 27
      · have e : c x = F64.ofBits 0xBFF0000000000000 := (if_neg h1).trans (if_pos h2)
        rw [e]
        refine ⟨mone.1, ?_⟩
        rw [mone.2]
        have := small _ h2
        rw [Real.cos_sub_pi] at this
        rw [← abs_neg]
        convert this using 2
        push_cast; ring
      · have e : c x = L.cos x := (if_neg h1).trans (if_neg h2)
        rw [e]
        exact hL.cos x hx h0 h4
  · intro x hx
    refine ⟨fun h1 => ?_, fun h2 => ?_⟩
    · have e : c x = F64.ofBits 0x3FF0000000000000 := if_pos h1
      change (c x).isFinite = true ∧ (c x).val = 1
      rw [e]; exact one
    · have h1 : ¬ |(x.val : ℝ)| ≤ 1 / 2 ^ 27 := by
        intro h1
        have := abs_sub_abs_le_abs_sub Real.pi (x.val : ℝ)
        rw [abs_sub_comm, abs_of_pos Real.pi_pos] at this
        have h3 := Real.pi_gt_three
        have h4 : (1 : ℝ) / 2 ^ 27 ≤ 1 := by norm_num
        linarith
      have e : c x = F64.ofBits 0xBFF0000000000000 := (if_neg h1).trans (if_pos h2)
      change (c x).isFinite = true ∧ (c x).val = -1
      rw [e]; exact mone

end GaussQuad.F64
