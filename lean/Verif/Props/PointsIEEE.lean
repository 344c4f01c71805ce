import Verif.Proofs.F64Error
import Verif.Proofs.F64Nat
import Verif.Proofs.F64Special
import Verif.Proofs.Protocol

/-!
# C23 in binary64: where the Newton-Cotes rules evaluate the integrand
-/

set_option exponentiation.threshold 3000

namespace GaussQuad.Props
open Spec F64 FloatOps

theorem val_round_half {m : ℕ} (hm : m < 2 ^ 53) (s : Bool) :
    (F64.round ((m : ℚ) / 2) s).val = m / 2 ∧ (F64.round ((m : ℚ) / 2) s).isFinite = true := by
  have hb : m * 2 ^ 1073 < 2 ^ 2098 := by
    calc m * 2 ^ 1073 < 2 ^ 53 * 2 ^ 1073 := Nat.mul_lt_mul_of_pos_right hm (Nat.two_pow_pos _)
      _ = 2 ^ 1126 := by rw [← pow_add]
      _ ≤ 2 ^ 2098 := Nat.pow_le_pow_right (by norm_num) (by norm_num)
  obtain ⟨x, hx, -, hv⟩ := exists_repr 1073 hm hb false
  have hv' : x.val = (m : ℚ) / 2 := by
    rw [hv]
    simp only [Bool.false_eq_true, if_false, one_mul]
    rw [Nat.cast_mul, Nat.cast_pow, Nat.cast_ofNat, pow_succ (2 : ℚ) 1073]
    generalize hP : (2 : ℚ) ^ 1073 = P
    have hP0 : P ≠ 0 := by rw [← hP]; exact pow_ne_zero _ two_ne_zero
    field_simp
  rw [← hv']
  exact val_round_of_repr hx s

/-- the smallest width of a subinterval for which half of it is still a normal number -/
def minWidth : ℚ := 1 / 2 ^ 1021

theorem exists_minWidth : ∃ x : F64, x.isFinite = true ∧ x.val = minWidth := by
  have hb : 1 * 2 ^ 53 < 2 ^ 2098 := by
    rw [one_mul]; exact Nat.pow_lt_pow_right (by norm_num) (by norm_num)
  obtain ⟨x, hx, -, hv⟩ := exists_repr 53 (m := 1) (by norm_num) hb false
  refine ⟨x, hx, ?_⟩
  rw [hv]
  simp only [Bool.false_eq_true, if_false, one_mul]
  unfold minWidth
  rw [Nat.cast_pow, Nat.cast_ofNat, pow_add (2 : ℚ) 53 1021]
  generalize hP : (2 : ℚ) ^ 53 = P
  generalize hQ : (2 : ℚ) ^ 1021 = Q
  have hP0 : P ≠ 0 := by rw [← hP]; exact pow_ne_zero _ two_ne_zero
  have hQ0 : Q ≠ 0 := by rw [← hQ]; exact pow_ne_zero _ two_ne_zero
  field_simp

theorem step_bound {D w h p n t : ℚ} (hn1 : 1 ≤ n) (hn2 : n ≤ 2 ^ 32) (ht0 : 0 ≤ t) (ht : t ≤ n - 1 / 2) (hD : 0 ≤ D)
    (hw : w ≤ D + u * D) (hh : h ≤ w / n + u * (w / n)) (hp : p ≤ (1 + u) * ((1 + u) * (h * t))) : p ≤ D := by
  have hu : u = 1 / 2 ^ 53 := rfl
  have hu0 := u_pos
  have hn0 : 0 < n := by linarith
  have h2 : h * t ≤ (1 + u) * (w / n) * t := by
    apply mul_le_mul_of_nonneg_right _ ht0; linarith
  have h3 : w / n * t ≤ (1 + u) * D * (1 - 1 / 2 ^ 33) := by
    have e1 : w / n ≤ (1 + u) * D / n := by gcongr; linarith
    have e2 : w / n * t ≤ (1 + u) * D / n * (n - 1 / 2) := by
      apply mul_le_mul e1 ht ht0
      apply div_nonneg _ hn0.le
      exact mul_nonneg (by linarith) hD
    have e3 : (1 + u) * D / n * (n - 1 / 2) = (1 + u) * D * (1 - 1 / (2 * n)) := by
      field_simp
    rw [e3] at e2
    refine e2.trans ?_
    apply mul_le_mul_of_nonneg_left _ (mul_nonneg (by linarith) hD)
    have : (1 : ℚ) / 2 ^ 33 ≤ 1 / (2 * n) := by
      apply one_div_le_one_div_of_le (by linarith)
      calc 2 * n ≤ 2 * 2 ^ 32 := by linarith
        _ = 2 ^ 33 := by norm_num
    linarith
  have h4 : h * t ≤ (1 + u) * ((1 + u) * D * (1 - 1 / 2 ^ 33)) := by
    calc h * t ≤ (1 + u) * (w / n) * t := h2
      _ = (1 + u) * (w / n * t) := by ring
      _ ≤ _ := mul_le_mul_of_nonneg_left h3 (by linarith)
  calc p ≤ (1 + u) * ((1 + u) * (h * t)) := hp
    _ = (1 + u) ^ 2 * (h * t) := by ring
    _ ≤ (1 + u) ^ 2 * ((1 + u) * ((1 + u) * D * (1 - 1 / 2 ^ 33))) := mul_le_mul_of_nonneg_left h4 (sq_nonneg _)
    _ = ((1 + u) ^ 4 * (1 - 1 / 2 ^ 33)) * D := by ring
    _ ≤ 1 * D := by
      apply mul_le_mul_of_nonneg_right _ hD
      rw [hu]; norm_num
    _ = D := one_mul D

section
variable [Libm] {a b : F64} {r : NodeRule}

/-- hypotheses: finite bounds `a < b`, no overflow of `b - a`, and subintervals at least `2^-1021` wide -/
structure RegularInterval (a b : F64) (r : NodeRule) : Prop where
  fina : a.isFinite = true
  finb : b.isFinite = true
  lt : a.val < b.val
  width : (b -ᶠ a).isFinite = true
  normal : minWidth ≤ (b -ᶠ a).val / r.degree

/-- facts about the computed width of a subinterval -/
theorem width_facts (H : RegularInterval a b r) :
    let w : F64 := b -ᶠ a
    let h : F64 := w /ᶠ ofNat r.degree
    h.isFinite = true ∧ minWidth ≤ h.val ∧ h.val ≤ w.val ∧ 0 ≤ w.val ∧ w.val ≤ (b.val - a.val) + u * (b.val - a.val) ∧
      h.val ≤ w.val / r.degree + u * (w.val / r.degree) := by
  intro w h
  have hn := val_round_nat (n := r.degree) (by have := r.lt; omega) false
  have hn0 : (0 : ℚ) < r.degree := by exact_mod_cast r.pos
  have hn1 : (1 : ℚ) ≤ r.degree := by exact_mod_cast r.pos
  have hmw : 0 < minWidth := by unfold minWidth; positivity
  have hwpos : 0 < w.val := by
    have h1 : 0 < w.val / r.degree := lt_of_lt_of_le hmw H.normal
    by_contra hcon
    exact absurd h1 (not_lt.2 (div_nonpos_of_nonpos_of_nonneg (not_lt.1 hcon) hn0.le))
  have hnz : (F64.round (r.degree : ℚ) false).isZero = false := by
    rw [Bool.eq_false_iff, Ne, isZero_iff, hn.1]; exact hn0.ne'
  have hhe : h = F64.round (w.val / r.degree) (w.sign != (F64.round (r.degree : ℚ) false).sign) := by
    show F64.div w (F64.round (r.degree : ℚ) false) = _
    rw [div_finite H.width hn.2 hnz, hn.1]
  have hle : w.val / r.degree ≤ w.val := div_le_self hwpos.le hn1
  obtain ⟨mw, hmwf, hmwv⟩ := exists_minWidth
  have hb := round_between (q := w.val / r.degree) (s := w.sign != (F64.round (r.degree : ℚ) false).sign) (a := mw) (b := w)
    hmwf H.width (by rw [hmwv]; exact H.normal) hle
  rw [← hhe, hmwv] at hb
  refine ⟨hb.1, hb.2.1, hb.2.2, hwpos.le, ?_, ?_⟩
  · have hw' : w = F64.add b (F64.neg a) := rfl
    have he := (add_error (x := b) (y := F64.neg a) (by rw [← hw']; exact H.width)).2.2
    rw [← hw', val_neg', ← sub_eq_add_neg, abs_of_pos (a := b.val - a.val) (by linarith [H.lt])] at he
    have := (abs_le.1 he).2
    linarith
  · have hpos : 0 < w.val / r.degree := div_pos hwpos hn0
    have he := round_error_normal (q := w.val / r.degree) (s := w.sign != (F64.round (r.degree : ℚ) false).sign)
      (by rw [← hhe]; exact hb.1) (by
        rw [abs_of_pos hpos]
        refine le_trans ?_ H.normal
        unfold minWidth
        apply one_div_le_one_div_of_le (by positivity)
        exact pow_le_pow_right₀ (by norm_num) (by norm_num))
    rw [← hhe, abs_of_pos (a := w.val / r.degree) hpos] at he
    have := (abs_le.1 he).2
    linarith

theorem degree_le (r : NodeRule) : (r.degree : ℚ) ≤ 2 ^ 32 := by
  have h2 : ((r.degree : ℕ) : ℚ) ≤ ((2 ^ 32 : ℕ) : ℚ) := Nat.cast_le.2 r.lt.le
  rwa [Nat.cast_pow, Nat.cast_ofNat] at h2

/-- the exact product of the computed panel width and a multiplier `t ≤ n - 1/2` is at most the computed width, so it does not overflow -/
theorem product_le_width (H : RegularInterval a b r) {t : ℚ} (ht0 : 0 ≤ t) (ht2 : t ≤ r.degree - 1 / 2) :
    ((b -ᶠ a) /ᶠ ofNat r.degree : F64).val * t ≤ (b -ᶠ a).val := by
  obtain ⟨hf, hlo, hhi, hw0, hw, hh⟩ := width_facts H
  have hn1 : (1 : ℚ) ≤ r.degree := by exact_mod_cast r.pos
  have hn2 : (r.degree : ℚ) ≤ 2 ^ 32 := degree_le r
  have e1 : ((b -ᶠ a) /ᶠ ofNat r.degree : F64).val * t ≤ ((b -ᶠ a).val / r.degree + u * ((b -ᶠ a).val / r.degree)) * (r.degree - 1 / 2) :=
    mul_le_mul hh ht2 ht0 (by
      have : 0 ≤ (b -ᶠ a).val / r.degree := div_nonneg hw0 (by linarith)
      have := u_pos
      positivity)
  refine e1.trans ?_
  have e2 : ((b -ᶠ a).val / r.degree + u * ((b -ᶠ a).val / r.degree)) * (r.degree - 1 / 2) =
      (1 + u) * (1 - 1 / (2 * r.degree)) * (b -ᶠ a).val := by
    have : (r.degree : ℚ) ≠ 0 := by linarith
    field_simp
  rw [e2]
  have e3 : (1 + u) * (1 - 1 / (2 * (r.degree : ℚ))) ≤ 1 := by
    have e4 : (1 : ℚ) / 2 ^ 33 ≤ 1 / (2 * r.degree) := by
      apply one_div_le_one_div_of_le (by linarith)
      calc (2 : ℚ) * r.degree ≤ 2 * 2 ^ 32 := by linarith
        _ = 2 ^ 33 := by norm_num
    have e5 : u ≤ 1 / 2 ^ 33 := by unfold u; norm_num
    have e6 := u_pos
    nlinarith
  nlinarith

/-- a computed offset `h * t` with `1/2 ≤ t ≤ n - 1/2` stays within the interval -/
theorem offset_inside (H : RegularInterval a b r) {t : F64} (htf : t.isFinite = true) (ht1 : 1 / 2 ≤ t.val)
    (ht2 : t.val ≤ r.degree - 1 / 2) :
    let h : F64 := (b -ᶠ a) /ᶠ ofNat r.degree
    (∀ x, x = a +ᶠ h *ᶠ t ∨ x = a +ᶠ t *ᶠ h → x.isFinite = true ∧ a.val ≤ x.val ∧ x.val ≤ b.val) := by
  intro h
  obtain ⟨hf, hlo, hhi, hw0, hw, hh⟩ := width_facts H
  have hn1 : (1 : ℚ) ≤ r.degree := by exact_mod_cast r.pos
  have hn2 : (r.degree : ℚ) ≤ 2 ^ 32 := degree_le r
  have hmw : 0 < minWidth := by unfold minWidth; positivity
  have hh0 : 0 ≤ h.val := hmw.le.trans hlo
  have ht0 : 0 ≤ t.val := by linarith
  have hq0 : 0 ≤ h.val * t.val := mul_nonneg hh0 ht0
  have hD : 0 ≤ b.val - a.val := by linarith [H.lt]
  have hqw : h.val * t.val ≤ (b -ᶠ a).val := product_le_width H ht0 ht2
  have hz := zero_isFinite false
  have hprod : ∀ s, (F64.round (h.val * t.val) s).isFinite = true ∧ 0 ≤ (F64.round (h.val * t.val) s).val ∧
      (F64.round (h.val * t.val) s).val ≤ b.val - a.val := by
    intro s
    have hb := round_between (q := h.val * t.val) (s := s) hz H.width (by rw [val_zero]; exact hq0) hqw
    rw [val_zero] at hb
    refine ⟨hb.1, hb.2.1, ?_⟩
    have hnorm : 1 / 2 ^ 1022 ≤ |h.val * t.val| := by
      rw [abs_of_nonneg hq0]
      have e : (1 : ℚ) / 2 ^ 1022 = minWidth * (1 / 2) := by
        unfold minWidth
        rw [show (1022 : ℕ) = 1021 + 1 by norm_num, pow_succ, ← div_div]; ring
      rw [e]
      exact mul_le_mul hlo ht1 (by norm_num) hh0
    have he := round_error_normal hb.1 hnorm
    rw [abs_of_nonneg (a := h.val * t.val) hq0] at he
    have he2 := (abs_le.1 he).2
    refine step_bound hn1 hn2 ht0 ht2 hD hw hh ?_
    have := u_pos
    nlinarith [mul_nonneg u_pos.le hq0]
  have fin : ∀ p : F64, p.isFinite = true → 0 ≤ p.val → p.val ≤ b.val - a.val →
      (a +ᶠ p).isFinite = true ∧ a.val ≤ (a +ᶠ p).val ∧ (a +ᶠ p).val ≤ b.val := by
    intro p hp h0 h1
    show (F64.add a p).isFinite = true ∧ a.val ≤ (F64.add a p).val ∧ (F64.add a p).val ≤ b.val
    rw [add_finite H.fina hp]
    exact round_between H.fina H.finb (by linarith) (by linarith)
  rintro x (rfl | rfl)
  · have e : h *ᶠ t = F64.round (h.val * t.val) (h.sign != t.sign) := mul_finite hf htf
    rw [e]
    obtain ⟨p1, p2, p3⟩ := hprod (h.sign != t.sign)
    exact fin _ p1 p2 p3
  · have e : t *ᶠ h = F64.round (h.val * t.val) (t.sign != h.sign) := by rw [mul_comm h.val]; exact mul_finite htf hf
    rw [e]
    obtain ⟨p1, p2, p3⟩ := hprod (t.sign != h.sign)
    exact fin _ p1 p2 p3

end

/-- C23 in binary64 for Midpoint: on every interval whose width does not overflow and whose subintervals are not subnormal, every
point at which the integrand is evaluated is finite and lies in `[a, b]`, for all degrees. -/
theorem C23_midpoint_ieee [Libm] {a b : F64} {r : NodeRule} (H : RegularInterval a b r) :
    ∀ x ∈ points a b (.midpoint r), x.isFinite = true ∧ a.val ≤ x.val ∧ x.val ≤ b.val := by
  intro x hx
  simp only [points, List.mem_map, List.mem_range] at hx
  obtain ⟨i, hi, rfl⟩ := hx
  have hlt := r.lt
  have hhalf := val_round_half (m := 1) (by norm_num) false
  have hi1 := val_round_nat (n := i) (by omega) false
  have hlit : (lit 0.5 : F64) = F64.round ((1 : ℕ) / 2) false := by
    show F64.round 0.5 false = _
    norm_num
  have hsum : (lit 0.5 +ᶠ ofNat i : F64).val = i + 1 / 2 ∧ (lit 0.5 +ᶠ ofNat i : F64).isFinite = true := by
    rw [hlit]
    show (F64.add _ (F64.round (i : ℚ) false)).val = _ ∧ (F64.add _ (F64.round (i : ℚ) false)).isFinite = true
    rw [add_finite hhalf.2 hi1.2, hhalf.1, hi1.1]
    have e : ((1 : ℕ) : ℚ) / 2 + i = ((2 * i + 1 : ℕ) : ℚ) / 2 := by push_cast; ring
    rw [e]
    have := val_round_half (m := 2 * i + 1) (by omega)
      ((F64.round (((1 : ℕ) : ℚ) / 2) false).sign && (F64.round (i : ℚ) false).sign)
    refine ⟨?_, this.2⟩
    rw [this.1]; push_cast; ring
  have hi' : (i : ℚ) + 1 ≤ r.degree := by exact_mod_cast hi
  have hi0 : (0 : ℚ) ≤ i := Nat.cast_nonneg i
  exact offset_inside H hsum.2 (by rw [hsum.1]; linarith) (by rw [hsum.1]; linarith) _ (Or.inl rfl)

/-- C23 in binary64 for Trapezoid. -/
theorem C23_trapezoid_ieee [Libm] {a b : F64} {r : NodeRule} (H : RegularInterval a b r) :
    ∀ x ∈ points a b (.trapezoid r), x.isFinite = true ∧ a.val ≤ x.val ∧ x.val ≤ b.val := by
  intro x hx
  simp only [points, List.mem_append, List.mem_cons, List.not_mem_nil, or_false, List.mem_map, List.mem_range] at hx
  have hlt := r.lt
  rcases hx with (rfl | rfl) | ⟨i, hi, rfl⟩
  · exact ⟨H.fina, le_rfl, H.lt.le⟩
  · exact ⟨H.finb, H.lt.le, le_rfl⟩
  · have hi1 := val_round_nat (n := i + 1) (by omega) false
    have hi' : (i : ℚ) + 2 ≤ r.degree := by exact_mod_cast (by omega : i + 2 ≤ r.degree)
    have hi0 : (0 : ℚ) ≤ i := Nat.cast_nonneg i
    refine offset_inside H (t := ofNat (i + 1)) hi1.2 ?_ ?_ _ (Or.inr rfl)
    · show 1 / 2 ≤ (F64.round ((i + 1 : ℕ) : ℚ) false).val
      rw [hi1.1]; push_cast; linarith
    · show (F64.round ((i + 1 : ℕ) : ℚ) false).val ≤ _
      rw [hi1.1]; push_cast; linarith

/-- the offset of a Simpson midpoint, `(2i-1) * h / 2`, stays within the interval if twice the width does not overflow -/
theorem simpson_offset_inside [Libm] {a b : F64} {r : NodeRule} (H : RegularInterval a b r)
    (hov : (lit 2.0 *ᶠ (b -ᶠ a) : F64).isFinite = true) {t : F64} (htf : t.isFinite = true) (ht1 : 1 ≤ t.val)
    (ht2 : t.val ≤ 2 * r.degree - 1) :
    let x := a +ᶠ t *ᶠ ((b -ᶠ a) /ᶠ ofNat r.degree) /ᶠ lit 2.0
    x.isFinite = true ∧ a.val ≤ x.val ∧ x.val ≤ b.val := by
  intro x
  obtain ⟨hf, hlo, hhi, hw0, hw, hh⟩ := width_facts H
  obtain ⟨mw, hmwf, hmwv⟩ := exists_minWidth
  have htwo : (lit 2.0 : F64) = F64.round ((2 : ℕ) : ℚ) false := by
    show F64.round 2.0 false = _
    norm_num
  have h2 := val_round_nat (n := 2) (by norm_num) false
  have h2z : (F64.round ((2 : ℕ) : ℚ) false).isZero = false := by
    rw [Bool.eq_false_iff, Ne, isZero_iff, h2.1]; norm_num
  have hn1 : (1 : ℚ) ≤ r.degree := by exact_mod_cast r.pos
  have hn2 : (r.degree : ℚ) ≤ 2 ^ 32 := degree_le r
  have hmw : 0 < minWidth := by unfold minWidth; positivity
  have hD : 0 ≤ b.val - a.val := by linarith [H.lt]
  have ht0 : 0 ≤ t.val / 2 := by linarith
  have ht2' : t.val / 2 ≤ r.degree - 1 / 2 := by linarith
  have hqw := product_le_width H ht0 ht2'
  set h : F64 := (b -ᶠ a) /ᶠ ofNat r.degree with hh_def
  have hh0 : 0 ≤ h.val := hmw.le.trans hlo
  have hq : minWidth ≤ t.val * h.val := by nlinarith
  -- `t * h` does not overflow
  have e1 : t *ᶠ h = F64.round (t.val * h.val) (t.sign != h.sign) := mul_finite htf hf
  have hp1f : (t *ᶠ h).isFinite = true := by
    rw [e1, round_isFinite_iff]
    rw [htwo] at hov
    have e2 : F64.round ((2 : ℕ) : ℚ) false *ᶠ (b -ᶠ a) = _ := mul_finite h2.2 H.width
    rw [e2, round_isFinite_iff, h2.1] at hov
    refine lt_of_le_of_lt ?_ hov
    rw [abs_of_nonneg (by linarith), abs_of_nonneg (by push_cast; linarith)]
    push_cast
    linarith
  have hp1lo : minWidth ≤ (t *ᶠ h).val := by
    rw [e1] at hp1f ⊢
    rw [← hmwv] at hq ⊢
    exact le_round hp1f hmwf hq
  have hmin : 1 / 2 ^ 1022 = minWidth * (1 / 2) := by
    unfold minWidth
    rw [show (1022 : ℕ) = 1021 + 1 by norm_num, pow_succ, ← div_div]; ring
  have hp1hi : (t *ᶠ h).val ≤ t.val * h.val + u * (t.val * h.val) := by
    have hn : 1 / 2 ^ 1022 ≤ |t.val * h.val| := by
      rw [abs_of_nonneg (by linarith), hmin]; linarith
    have he := round_error_normal (by rw [← e1]; exact hp1f) hn
    rw [← e1, abs_of_nonneg (a := t.val * h.val) (by linarith)] at he
    linarith [(abs_le.1 he).2]
  -- halving
  have e3 : t *ᶠ h /ᶠ lit 2.0 = F64.round ((t *ᶠ h).val / 2) ((t *ᶠ h).sign != (F64.round ((2 : ℕ) : ℚ) false).sign) := by
    rw [htwo]
    refine (div_finite hp1f h2.2 h2z).trans ?_
    rw [h2.1]; push_cast; rfl
  have hz := zero_isFinite false
  have hb := round_between (q := (t *ᶠ h).val / 2) (s := (t *ᶠ h).sign != (F64.round ((2 : ℕ) : ℚ) false).sign) hz hp1f
    (by rw [val_zero]; linarith) (by linarith)
  rw [← e3, val_zero] at hb
  have hp2 : (t *ᶠ h /ᶠ lit 2.0).val ≤ b.val - a.val := by
    have hn : 1 / 2 ^ 1022 ≤ |(t *ᶠ h).val / 2| := by
      rw [abs_of_nonneg (by linarith), hmin]; linarith
    have he := round_error_normal (s := (t *ᶠ h).sign != (F64.round ((2 : ℕ) : ℚ) false).sign) (by rw [← e3]; exact hb.1) hn
    rw [← e3, abs_of_nonneg (a := (t *ᶠ h).val / 2) (by linarith)] at he
    have he2 := (abs_le.1 he).2
    refine step_bound (t := t.val / 2) hn1 hn2 ht0 ht2' hD hw hh ?_
    have := u_pos
    have h5 : (t *ᶠ h).val / 2 ≤ (1 + u) * (h.val * (t.val / 2)) := by linarith
    calc (t *ᶠ h /ᶠ lit 2.0).val ≤ (1 + u) * ((t *ᶠ h).val / 2) := by linarith
      _ ≤ _ := mul_le_mul_of_nonneg_left h5 (by linarith)
  show (F64.add a (t *ᶠ h /ᶠ lit 2.0)).isFinite = true ∧ a.val ≤ (F64.add a (t *ᶠ h /ᶠ lit 2.0)).val ∧
    (F64.add a (t *ᶠ h /ᶠ lit 2.0)).val ≤ b.val
  rw [add_finite H.fina hb.1]
  exact round_between H.fina H.finb (by linarith [hb.2.1]) (by linarith)

/-- C23 in binary64 for Simpson: here twice the width must not overflow either (`(2i-1)*h` is formed before halving). -/
theorem C23_simpson_ieee [Libm] {a b : F64} {r : NodeRule} (H : RegularInterval a b r)
    (hov : (lit 2.0 *ᶠ (b -ᶠ a) : F64).isFinite = true) :
    ∀ x ∈ points a b (.simpson r), x.isFinite = true ∧ a.val ≤ x.val ∧ x.val ≤ b.val := by
  intro x hx
  simp only [points, List.mem_append, List.mem_cons, List.not_mem_nil, or_false, List.mem_map, List.mem_range] at hx
  have hlt := r.lt
  rcases hx with (⟨i, hi, rfl⟩ | ⟨i, hi, rfl⟩) | rfl | rfl
  · exact C23_trapezoid_ieee H _ (by simp only [points, List.mem_append, List.mem_map, List.mem_range]; exact Or.inr ⟨i, hi, rfl⟩)
  · have hi1 := val_round_nat (n := i + 1) (by omega) false
    have h2 := val_round_nat (n := 2) (by norm_num) false
    have h1 := val_round_nat (n := 1) (by norm_num) false
    have htwo : (lit 2.0 : F64) = F64.round ((2 : ℕ) : ℚ) false := by
      show F64.round 2.0 false = _
      norm_num
    have hone : (lit 1.0 : F64) = F64.round ((1 : ℕ) : ℚ) false := by
      show F64.round 1.0 false = _
      norm_num
    have hm := val_round_nat (n := 2 * (i + 1)) (by omega)
      ((F64.round ((2 : ℕ) : ℚ) false).sign != (F64.round ((i + 1 : ℕ) : ℚ) false).sign)
    have e1 : (lit 2.0 *ᶠ ofNat (i + 1) : F64) = F64.round ((2 * (i + 1) : ℕ) : ℚ)
        ((F64.round ((2 : ℕ) : ℚ) false).sign != (F64.round ((i + 1 : ℕ) : ℚ) false).sign) := by
      rw [htwo]
      refine (mul_finite h2.2 hi1.2).trans ?_
      rw [h2.1, hi1.1]; push_cast; rfl
    have e2 : (lit 2.0 *ᶠ ofNat (i + 1) -ᶠ lit 1.0 : F64).val = 2 * i + 1 ∧
        (lit 2.0 *ᶠ ofNat (i + 1) -ᶠ lit 1.0 : F64).isFinite = true := by
      rw [e1, hone]
      show (F64.sub _ _).val = _ ∧ (F64.sub _ _).isFinite = true
      rw [sub_finite hm.2 h1.2, hm.1, h1.1]
      have e : ((2 * (i + 1) : ℕ) : ℚ) - ((1 : ℕ) : ℚ) = ((2 * i + 1 : ℕ) : ℚ) := by push_cast; ring
      rw [e]
      refine ⟨?_, (val_round_nat (by omega) _).2⟩
      rw [(val_round_nat (by omega) _).1]; push_cast; ring
    have hi' : (i : ℚ) + 1 ≤ r.degree := by exact_mod_cast hi
    have hi0 : (0 : ℚ) ≤ i := Nat.cast_nonneg i
    exact simpson_offset_inside H hov e2.2 (by rw [e2.1]; linarith) (by rw [e2.1]; linarith)
  · exact ⟨H.fina, le_rfl, H.lt.le⟩
  · exact ⟨H.finb, H.lt.le, le_rfl⟩

/-- the hypotheses are met by `[1, 3]` with 10 panels -/
example [Libm] : RegularInterval (F64.round 1 false) (F64.round 3 false) ⟨10, by decide, by decide⟩ ∧
    (lit 2.0 *ᶠ (F64.round 3 false -ᶠ F64.round 1 false) : F64).isFinite = true := by
  refine ⟨⟨by decide +kernel, by decide +kernel, by decide +kernel, ?_, ?_⟩, ?_⟩
  · show (F64.sub (F64.round 3 false) (F64.round 1 false)).isFinite = true
    decide +kernel
  · show minWidth ≤ (F64.sub (F64.round 3 false) (F64.round 1 false)).val / (10 : ℕ)
    decide +kernel
  · show (F64.mul (F64.round 2.0 false) (F64.sub (F64.round 3 false) (F64.round 1 false))).isFinite = true
    decide +kernel

/-! ## the hypotheses cannot be dropped -/

/-- largest finite binary64 number -/
def maxF64 : F64 := ⟨false, infMag - 1, by decide⟩

/-- C23 refuted in binary64 as stated: with subnormal panels (`[0, 3·2^-1074]`, 4 panels) the midpoint rule evaluates outside `[a, b]`. -/
theorem C23_midpoint_ieee_subnormal_refuted [Libm] :
    ∃ (a b : F64) (r : NodeRule), a.isFinite = true ∧ b.isFinite = true ∧ a.val < b.val ∧ (b -ᶠ a).isFinite = true ∧
      ∃ x ∈ points a b (.midpoint r), x.isFinite = true ∧ b.val < x.val := by
  refine ⟨zero false, ⟨false, 3, by decide⟩, ⟨4, by decide, by decide⟩, by decide, by decide, by decide +kernel, ?_, _,
    List.mem_map.2 ⟨3, List.mem_range.2 (by decide), rfl⟩, ?_⟩
  · show (F64.sub _ _).isFinite = true
    decide +kernel
  · show (F64.add (zero false) (F64.mul (F64.div (F64.sub ⟨false, 3, by decide⟩ (zero false)) (F64.round (4 : ℕ) false))
      (F64.add (F64.round 0.5 false) (F64.round (3 : ℕ) false)))).isFinite = true ∧
      (⟨false, 3, by decide⟩ : F64).val < (F64.add (zero false) (F64.mul (F64.div (F64.sub ⟨false, 3, by decide⟩ (zero false))
      (F64.round (4 : ℕ) false)) (F64.add (F64.round 0.5 false) (F64.round (3 : ℕ) false)))).val
    decide +kernel

/-- strict containment fails by rounding alone: on `[1, 1 + 2^-52]` the midpoint rule evaluates at the end point `a` -/
theorem C23_midpoint_ieee_strict_refuted [Libm] :
    ∃ (a b : F64) (r : NodeRule), RegularInterval a b r ∧ a ∈ points a b (.midpoint r) := by
  have hb : F64.add (F64.round 1 false) (F64.mul (F64.div (F64.sub (F64.round (1 + 1 / 2 ^ 52) false) (F64.round 1 false))
      (F64.round (1 : ℕ) false)) (F64.add (F64.round 0.5 false) (F64.round (0 : ℕ) false))) = F64.round 1 false := by decide +kernel
  refine ⟨F64.round 1 false, F64.round (1 + 1 / 2 ^ 52) false, ⟨1, by decide, by decide⟩, ⟨by decide +kernel, by decide +kernel,
    by decide +kernel, ?_, ?_⟩, List.mem_map.2 ⟨0, List.mem_range.2 (by decide), hb⟩⟩
  · show (F64.sub _ _).isFinite = true
    decide +kernel
  · show minWidth ≤ (F64.sub (F64.round (1 + 1 / 2 ^ 52) false) (F64.round 1 false)).val / (1 : ℕ)
    decide +kernel

/-- if `b - a` overflows the integrand is evaluated at infinity -/
theorem C23_midpoint_ieee_overflow_refuted [Libm] :
    ∃ (a b : F64) (r : NodeRule), a.isFinite = true ∧ b.isFinite = true ∧ a.val < b.val ∧ inf false ∈ points a b (.midpoint r) := by
  have hb : F64.add (F64.neg maxF64) (F64.mul (F64.div (F64.sub maxF64 (F64.neg maxF64))
      (F64.round (1 : ℕ) false)) (F64.add (F64.round 0.5 false) (F64.round (0 : ℕ) false))) = inf false := by decide +kernel
  exact ⟨F64.neg maxF64, maxF64, ⟨1, by decide, by decide⟩, by decide +kernel, by decide +kernel, by decide +kernel,
    List.mem_map.2 ⟨0, List.mem_range.2 (by decide), hb⟩⟩

/-- Simpson evaluates at infinity on `[0, MAX]` with two panels although the interval is regular and Midpoint and Trapezoid stay
inside it: the numerator `(2i-1)*h` overflows before it is halved. -/
theorem C23_simpson_ieee_overflow_refuted [Libm] :
    ∃ (a b : F64) (r : NodeRule), RegularInterval a b r ∧ inf false ∈ points a b (.simpson r) := by
  have hb : F64.add (zero false) (F64.div (F64.mul (F64.sub (F64.mul (F64.round 2.0 false) (F64.round (2 : ℕ) false)) (F64.round 1.0 false))
      (F64.div (F64.sub maxF64 (zero false)) (F64.round (2 : ℕ) false))) (F64.round 2.0 false)) = inf false := by decide +kernel
  refine ⟨zero false, maxF64, ⟨2, by decide, by decide⟩, ⟨by decide +kernel, by decide +kernel,
    by decide +kernel, ?_, ?_⟩, List.mem_append_left _ (List.mem_append_right _
      (List.mem_map.2 ⟨1, List.mem_range.2 (by decide), hb⟩))⟩
  · show (F64.sub _ _).isFinite = true
    decide +kernel
  · show minWidth ≤ (F64.sub maxF64 (zero false)).val / (2 : ℕ)
    decide +kernel

/-- Simpson with one panel on [1, 3] -/
example [Libm] (r : NodeRule) (H : RegularInterval (F64.round 1 false) (F64.round 3 false) r)
    (hov : (lit 2.0 *ᶠ (F64.round 3 false -ᶠ F64.round 1 false) : F64).isFinite = true) :
    ∀ x ∈ points (F64.round 1 false) (F64.round 3 false) (.simpson r), x.isFinite = true ∧ (F64.round 1 false).val ≤ x.val ∧ x.val ≤ (F64.round 3 false).val :=
  C23_simpson_ieee H hov

end GaussQuad.Props
